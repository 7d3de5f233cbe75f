import Verif.Model.BulkLoader
import Mathlib.Data.List.Forall2
/-
What a user of the bulk loader expects, for C67.
-/
namespace ModelarDB.Spec.BulkLoader
open Model.BulkLoader

variable {ν : Type}

/-- The schema and rows of the table with a name. -/
def contents (f : Folder ν) (name : String) : Option (List Column × List (List (Value ν))) :=
  match f.find name with
  | none => none
  | some (.normal schema rows) => some (schema, rows)
  | some (.timeSeries schema _ rows) => some (schema, rows)

/-- All tables have the rows they had. -/
def Unchanged (f f' : Folder ν) : Prop := ∀ name, contents f' name = contents f name

/-- A table has `rows` in addition to the rows it had and nothing else changed. -/
def Added (f f' : Folder ν) (name : String) (rows : List (List (Value ν))) : Prop :=
  (∀ other, other ≠ name → contents f' other = contents f other) ∧
  ∃ schema old, contents f name = some (schema, old) ∧ contents f' name = some (schema, old ++ rows)

/-- The rows of the input that can be read. -/
def inputRows (input : List (Option (Batch ν))) : List (List (Value ν)) :=
  input.flatMap fun
    | some b => b.rows
    | none => []

/-- A table in the folder is a time series table with this schema for its segments. -/
def IsTimeSeriesTable (f : Folder ν) (name : String) (segments : List Column) : Prop :=
  ∃ schema rows, f.find name = some (.timeSeries schema segments rows)

/-- A table in the folder is a normal table with this schema. -/
def IsNormalTable (f : Folder ν) (name : String) (schema : List Column) (rows : List (List (Value ν))) : Prop :=
  f.find name = some (.normal schema rows)

/-- Nothing fails. -/
def Works (faults : Faults) : Prop := faults.read = false ∧ (∀ i, faults.write i = false) ∧ faults.rollback = false ∧ faults.commit = .ok

/-- The SQL defines something with this name in the session. -/
def Defines (sql : List (Sql ν)) (name : String) : Prop := ∃ replace schema rows, Sql.define name replace schema rows ∈ sql

/-- The types that are imported into a column with another type. -/
inductive Castable (double : Bool) : ColumnType → ColumnType → Prop
  | second : Castable double (.timestamp .second) (.timestamp .microsecond)
  | millisecond : Castable double (.timestamp .millisecond) (.timestamp .microsecond)
  | microsecond : Castable double (.timestamp .microsecond) (.timestamp .microsecond)
  | half : Castable double .float16 .float32
  | single : Castable double .float32 .float32
  | double : double = true → Castable double .float64 .float32
  | text : Castable double .utf8View .utf8View

/-- Nanoseconds in a unit. -/
def nanoseconds : Model.BulkLoader.Unit → Int
  | .second => 1000000000
  | .millisecond => 1000000
  | .microsecond => 1000
  | .nanosecond => 1

/-- A value has the type of its column, and a timestamp is in the range of 64 bits in microseconds. -/
def Typed : ColumnType → Value ν → Prop
  | .timestamp u, .time t => -(2 ^ 63) * 1000 ≤ t * nanoseconds u ∧ t * nanoseconds u < 2 ^ 63 * 1000
  | .float16, .number _ | .float32, .number _ | .float64, .number _ => True
  | .utf8View, .text _ => True
  | _, _ => False

/-- A stored value means what the imported value of a type means: the same point in time, the same number, rounded if it has 64 bits, or the same text. -/
def Means (narrow : ν → ν) : ColumnType → Value ν → Value ν → Prop
  | .timestamp u, .time t, .time t' => t * nanoseconds u = t' * nanoseconds .microsecond
  | .float64, .number x, .number y => y = narrow x
  | .float16, .number x, .number y | .float32, .number x, .number y => y = x
  | .utf8View, .text a, .text b => a = b
  | _, _, _ => False

/-- The first column with a name and its value. -/
def named (schema : List Column) (row : List (Value ν)) (name : String) : Option (Column × Value ν) :=
  (schema.zip row).find? (·.1.name == name)

/-- A stored row has the values of the imported row in the columns with the same names. -/
def SameByName (narrow : ν → ν) (source target : List Column) (row stored : List (Value ν)) : Prop :=
  ∀ c ∈ target, ∃ p q, named source row c.name = some p ∧ named target stored c.name = some q ∧ Means narrow p.1.type p.2 q.2

/-- A batch has the columns of a table with types that are cast to those of the table, and rows without nulls. -/
structure Fits (double : Bool) (schema : List Column) (b : Batch ν) : Prop where
  columns : List.Forall₂ (fun c t => c.name = t.name ∧ Castable double c.type t.type) b.schema schema
  rows : b.rows ≠ []
  values : ∀ row ∈ b.rows, List.Forall₂ (fun c v => Typed c.type v) b.schema row

end ModelarDB.Spec.BulkLoader
