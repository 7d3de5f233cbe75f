import Verif.Model.CreateNormalTable
import Mathlib.Data.List.Forall2
/-
What a CREATE TABLE statement says, for C76.
-/
namespace ModelarDB.Spec
open Model.CreateTable Model.CreateNormalTable

/-- A type as it is stored: timestamps are in microseconds, which is the only unit of Delta Lake. -/
inductive StoredType : ArrowType → ArrowType → Prop
  | timestamp (unit : TimeUnit) (timezone : Option String) : StoredType (.timestamp unit timezone) (.timestamp .microsecond timezone)
  | scalar (name : String) : StoredType (.scalar name) (.scalar name)
  | nested (kind : String) (fields : Fields) : StoredType (.nested kind fields) (.nested kind fields)

/-- The name of a column: the letters of a name in quotes are kept, others are in lower case. -/
def ColumnName (c : ColumnDef) (name : List Char) : Prop :=
  (c.quoted = true ∧ name = c.name) ∨ (c.quoted = false ∧ name = c.name.map Char.toLower)

/-- A column is as it is declared. -/
structure DeclaredAs (c : ColumnDef) (f : Field) : Prop where
  name : ColumnName c f.name
  type : ∃ t, c.type = some t ∧ StoredType t f.type
  nullable : f.nullable = false ↔ ColumnOption.notNull ∈ c.options

/-- A table has the declared name and exactly the declared columns. -/
structure DeclaresNormal {ε : Type} (sql : Sql ε) (s : Statement) (t : NormalTable) : Prop where
  name : ∃ part, s.name = [part] ∧ t.name = sql.lower part
  columns : List.Forall₂ DeclaredAs s.columns t.schema

/-- A statement that is accepted: no other part is set, and the name and the types can be used. -/
structure SensibleNormal {ε : Type} (sql : Sql ε) (s : Statement) : Prop where
  noFeature : ∀ f : Feature, f ∉ s.features
  name : ∃ part, s.name = [part] ∧ (∀ c ∈ sql.lower part, c.isWhitespace = false) ∧ sql.upper (sql.lower part) ∉ sql.keywords ∧
    sql.validPath (sql.lower part) = true
  types : ∀ c ∈ s.columns, c.type ≠ none

/-- A type without nested fields. -/
def FlatType : ArrowType → Prop
  | .nested _ _ => False
  | _ => True

/-- All types are without nested fields. -/
def FlatTypes (s : Statement) : Prop := ∀ c ∈ s.columns, ∀ t, c.type = some t → FlatType t

/-- All that is declared of a column is stored: the only options are NULL and NOT NULL, and a timestamp is in microseconds. -/
def AllKept (c : ColumnDef) (f : Field) : Prop :=
  (∀ o ∈ c.options, o = .null ∨ o = .notNull) ∧ c.type = some f.type

end ModelarDB.Spec
