import Verif.Model.Insert
import Verif.Spec.QueryPlan
import Mathlib.Data.List.Forall2
/-
Specification of INSERT, for C71. It refers to columns by name.
-/
namespace ModelarDB.Spec
open Model.TableDefinition Model.Query Model.Insert

variable {ε : Type}

/-- A statement with the columns gives the value for the column with the name. -/
def Given (columns : List String) (row : Row) (name : String) (v : Value) : Prop := ∃ i : Nat, columns[i]? = some name ∧ row[i]? = some v

/-- A stored row has the values that are given for its columns, and null in the columns that no value is given for if that is allowed. -/
structure StoredAs (schema : List Column) (columns : List String) (given stored : Row) : Prop where
  length : stored.length = schema.length
  values : ∀ (j : Nat) (c : Column), schema[j]? = some c →
    ∃ v, stored[j]? = some v ∧ (Given columns given c.name v ∨ c.name ∉ columns ∧ v = .null)

/-- No column that does not allow null has null. -/
def NoNull (schema : List Column) (stored : Row) : Prop :=
  ∀ (j : Nat) (c : Column), schema[j]? = some c → c.nullable = false → stored[j]? ≠ some .null

/-- The columns of a statement. All columns if none are listed. -/
def columnsOf (schema : List Column) (s : Statement) : List String := s.columns.getD (schema.map (·.name))

/-- The rows of the first batches. -/
def rowsOf (batches : List (Option (List Row))) : List Row := (batches.map fun b => b.getD []).flatten

/-- The value a statement with all columns gives for a stored column. -/
def givenStored (m : Metadata ε) (given : Row) (name : String) : Value :=
  if name ∈ m.schema.map (·.name) then lookup m.querySchema given name else .null

/-- The values that are given for generated columns are the values of their expressions. -/
def GeneratedAgree (m : Metadata ε) (value : ε → (String → Option Value) → Option Value) (given : Row) : Prop :=
  ∀ (i : Nat) (g : Generated ε), m.generated[i]? = some (some g) → given[i]? = value g.expr fun name => some (givenStored m given name)

/-- A row that is not refused: a value that fits is given for each stored column, and a value is given for each column that is checked. -/
structure Acceptable (m : Metadata ε) (checked : List Nat) (columns : List String) (row : Row) : Prop where
  length : row.length = columns.length
  stored : ∀ c ∈ m.schema, ∃ v, Given columns row c.name v ∧ fits c v = true
  checked : ∀ i ∈ checked, ∀ c, m.querySchema[i]? = some c → ∃ v, Given columns row c.name v ∧ v ≠ .null

end ModelarDB.Spec
