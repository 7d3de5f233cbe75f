import Verif.Model.QueryPlan
import Verif.Spec.Query
import Verif.Spec.TableDefinition
/-
Specification of the filters and the columns of queries, for C34, C39 and C40.
-/
namespace ModelarDB.Spec
open Model.Query Model.TableDefinition

/-- The value of a column for values that are in the order of the columns. -/
def lookup (schema : List Column) (values : List Value) (name : String) : Value :=
  match indexOf schema name with
  | some i => (values[i]?).getD .null
  | none => .null

/-- The values of the columns of a segment as it is stored. Only the first and last time and the tags are given. -/
def segmentValues (rest : Nat → Value) (start stop : Int) (tags : List String) : List Value :=
  [rest 0, .time start, .time stop, rest 3, rest 4, rest 5, rest 6, rest 7, rest 8] ++ tags.map .text

/-- The values of the columns of a data point. -/
def pointValues (p : Point) : List Value := [.time p.time, .number p.value] ++ p.tags.map .text

/-- A filter keeps the values. A condition that is null does not hold. -/
def Keeps (I : Interpretation) (filter : Option Expr) (env : String → Value) : Prop := ∀ e, filter = some e → e.eval I env = .bool true

instance (I : Interpretation) (filter : Option Expr) (env : String → Value) : Decidable (Keeps I filter env) :=
  match filter with
  | none => .isTrue (by intro e h; cases h)
  | some e =>
    if h : e.eval I env = .bool true then .isTrue (by intro e' h'; cases h'; exact h) else .isFalse fun h' => h (h' e rfl)

/-- A filter that requires a value that is not a column to be equal to the timestamp, with the timestamp on the right. -/
def ReversedEquality (schema : List Column) : Expr → Prop
  | .binary (.column _) _ _ => False
  | .binary _ .eq (.column name) => ∃ c ∈ schema, c.name = name ∧ c.type = .timestamp
  | _ => False

/-- The values of a row in the columns that are stored with a data point. All other columns can have any value. -/
structure RowOf {ε : Type} (m : Metadata ε) (p : Point) (row : String → Value) : Prop where
  time : ∀ c, m.schema[m.timestampIndex]? = some c → row c.name = .time p.time
  tags : ∀ (k j : Nat) (c : Column) (tag : String), m.tagIndices[k]? = some j → m.schema[j]? = some c → p.tags[k]? = some tag →
    row c.name = .text tag
  count : p.tags.length = m.tagIndices.length

variable {ε : Type}

/-- The names of the tag columns of a table. -/
def tagNamesOf (m : Metadata ε) : List String := (m.tagIndices.filterMap fun i => m.schema[i]?).map (·.name)

/-- The value of a stored column in a row. The values of the fields are given by their position among the stored columns, the tags are in the
order of the tag columns. -/
def storedCell (m : Metadata ε) (row : TableRow) (name : String) : Option Cell :=
  match indexOf m.schema name with
  | none => none
  | some j =>
    match m.schema[j]? with
    | none => none
    | some c =>
      if c.type = .timestamp then some (.time row.time)
      else if c.type = .value then some (.value (row.values j))
      else
        match m.tagIndices.findIdx? fun i => i = j with
        | none => none
        | some k => (row.tags[k]?).map .tag

/-- What a query returns for a column of the table: the values of the column if it is stored, and the values of its expression for the stored
columns if it is generated. -/
def expected {κ : Type} (m : Metadata ε) (value : ε → (String → Option κ) → Option κ) (stored : String → κ) (i : Nat) : Option κ :=
  match m.generated[i]?, m.querySchema[i]? with
  | some (some g), some _ => value g.expr fun name => some (stored name)
  | some none, some c => some (stored c.name)
  | _, _ => none

/-- The column of a batch with a name. -/
def columnNamed {κ : Type} (schema : List Column) (batch : List κ) (name : String) : Option κ := (indexOf schema name).bind fun i => batch[i]?

/-- Only fields are generated among the columns in a projection. -/
def GeneratedFieldsIn (m : Metadata ε) (P : List Nat) : Prop :=
  ∀ i ∈ P, ∀ (g : Generated ε) (c : Column), m.generated[i]? = some (some g) → m.querySchema[i]? = some c →
    c.type ≠ .timestamp ∧ c.type ≠ .string

/-- A projection with a column that is stored or computed from stored columns. -/
def ReadsStored (m : Metadata ε) (P : List Nat) : Prop :=
  ∃ i ∈ P, m.generated[i]? = some none ∨ ∃ g : Generated ε, m.generated[i]? = some (some g) ∧ g.sources ≠ []

/-- The operand of a comparison that is used to skip segments is a column that is not stored: the left operand if it is a column, otherwise
the right operand. -/
def OperandNotStored (schema : List Column) : Expr → Prop
  | .binary (.column name) _ _ => name ∉ schema.map (·.name)
  | .binary _ _ (.column name) => name ∉ schema.map (·.name)
  | _ => False

/-- A hash set is iterated in some order. -/
def AnyOrder (hashOrder : List Nat → List Nat) : Prop := ∀ l i, i ∈ hashOrder l ↔ i ∈ l

end ModelarDB.Spec
