import Verif.Model.ReadTable
import Verif.Spec.Statements
/-
What is expected of `read_time_series_table`, for C63.
-/
namespace ModelarDB.Spec
open Model.Statements Model.ReadTable

variable {φ : Type}

/-- The columns and aggregates that are asked for: all columns if none are given. -/
def requestedItems (t : Table φ) (r : Request) : List (List Char × Aggregate) :=
  if r.columns = [] then t.columns.map (·, .none) else r.columns

/-- A request that refers to columns and tags of the table and to timestamps. -/
def ValidRequest (parseTime : List Char → Option Int) (t : Table φ) (r : Request) : Prop :=
  (∀ c ∈ r.columns, c.1 ∈ t.columns) ∧ (∀ c ∈ r.groupBy, c ∈ t.columns) ∧ (∀ tag ∈ r.tags, tag.1 ∈ t.tags) ∧
    (∀ time ∈ r.startTime, (parseTime time).isSome = true) ∧ (∀ time ∈ r.endTime, (parseTime time).isSome = true)

/-- A row that is asked for: it has the tags, and its timestamp is in the range. -/
def RequestedRow (parseTime : List Char → Option Int) (r : Request) (row : Row φ) : Prop :=
  (∀ tag ∈ r.tags, row.tag tag.1 = tag.2) ∧ (∀ time ∈ r.startTime, ∀ ts ∈ parseTime time, ts ≤ row.time) ∧
    (∀ time ∈ r.endTime, ∀ ts ∈ parseTime time, row.time ≤ ts)

/-- The result is computed from the columns and rows that are asked for, or there is an error if the request is not valid. -/
def Reads {ρ : Type} (parseTime : List Char → Option Int) (answer : Table φ → List (List Char × Aggregate) → List (List Char) → List (Row φ) → ρ)
    (t : Table φ) (r : Request) (result : Option ρ) : Prop :=
  (ValidRequest parseTime t r → ∃ keep : Row φ → Bool, (∀ row, keep row = true ↔ RequestedRow parseTime r row) ∧
      result = some (answer t (requestedItems t r) r.groupBy (t.rows.filter keep))) ∧
    (¬ValidRequest parseTime t r → result = none)

/-- The words of the queries that are read. -/
def queryWords : List (List Char) :=
  [['S', 'E', 'L', 'E', 'C', 'T'], ['F', 'R', 'O', 'M'], ['W', 'H', 'E', 'R', 'E'], ['G', 'R', 'O', 'U', 'P'], ['B', 'Y'],
    ['A', 'N', 'D'], ['O', 'R']]

/-- A name that is an identifier in lower case and not a word of SQL. -/
structure Readable (more : List (List Char)) (name : List Char) : Prop where
  plain : PlainName name
  lower : ∀ c ∈ name, c.toLower = c
  free : name.map Char.toUpper ∉ queryWords ∧ name.map Char.toUpper ∉ more

/-- A request for a table in which all names are such names and no value has a quote. -/
structure PlainRequest (more : List (List Char)) (t : Table φ) (r : Request) : Prop where
  table : Readable more r.table
  columns : ∀ c ∈ r.columns, Readable more c.1
  schema : r.columns = [] → t.columns ≠ [] ∧ ∀ c ∈ t.columns, Readable more c
  groupBy : ∀ c ∈ r.groupBy, Readable more c
  tags : ∀ tag ∈ r.tags, Readable more tag.1 ∧ tag.1 ≠ t.timestamp ∧ '\'' ∉ tag.2
  startTime : ∀ time ∈ r.startTime, '\'' ∉ time
  endTime : ∀ time ∈ r.endTime, '\'' ∉ time
  timestamp : r.startTime.isSome = true ∨ r.endTime.isSome = true → t.timestamp = "timestamp".toList ∧ Readable more "timestamp".toList

end ModelarDB.Spec
