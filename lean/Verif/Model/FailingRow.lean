/-
The error of a query for a generated column that cannot be computed.

Source: `failing_row` and `poll_next` in crates/modelardb_storage/src/query/generated_as_exec.rs.

Simplifications:
* Text is `String`. How timestamps, values and the cause of an error are formatted is a parameter.
* A column has one value for each row of its batch.
-/
namespace ModelarDB.Model.FailingRow

/-- The values of a column with the type of its array. Tags are `StringViewArray`s, crates/modelardb_storage/src/query/grid_exec.rs:286. No column of a time series table is a
`StringArray`. -/
inductive Values where
  | timestamps (values : List Int)
  | fields (values : List Nat)
  | strings (values : List String)
  | stringViews (values : List String)
deriving DecidableEq, Repr

structure Column where
  name : String
  values : Values
deriving DecidableEq, Repr

/-- A record batch. -/
structure Batch where
  rows : Nat
  columns : List Column
deriving DecidableEq, Repr

/-- How values are formatted. `dateTime` is `timestamp_ms_to_datetime`, which has no result for timestamps that are too large or too small. -/
structure Format where
  dateTime : Int → Option String
  timestamp : Int → String
  field : Nat → String

/-- `slice` with one row. -/
def Values.slice (row : Nat) : Values → Values
  | .timestamps v => .timestamps (v[row]?).toList
  | .fields v => .fields (v[row]?).toList
  | .strings v => .strings (v[row]?).toList
  | .stringViews v => .stringViews (v[row]?).toList

/-- `RecordBatch::slice` with one row, generated_as_exec.rs:214. -/
def Batch.slice (b : Batch) (row : Nat) : Batch := ⟨1, b.columns.map fun c => ⟨c.name, c.values.slice row⟩⟩

/-- What `failing_row` returns: text, an error or a panic. -/
inductive Outcome where
  | text (s : String)
  | error (s : String)
  | panic
deriving DecidableEq, Repr

/-- The value of a column in a row, generated_as_exec.rs:218-243. `value` panics if there is no such row. -/
def formatValue (f : Format) (row : Nat) (c : Column) : Outcome :=
  match c.values with
  | .timestamps v =>
    match v[row]? with
    | none => .panic
    | some t =>
      match f.dateTime t with
      | some s => .text (c.name ++ ": " ++ s)
      | none => .text (c.name ++ ": " ++ f.timestamp t)
  | .fields v =>
    match v[row]? with
    | none => .panic
    | some x => .text (c.name ++ ": " ++ f.field x)
  | .strings v =>
    match v[row]? with
    | none => .panic
    | some x => .text (c.name ++ ": " ++ x)
  | .stringViews _ => .error ("Type of column with name '" ++ c.name ++ "' is not supported.")

/-- The loop over the columns, generated_as_exec.rs:218-243. -/
def formatValues (f : Format) (row : Nat) : List Column → List String → Outcome
  | [], formatted => .text (String.intercalate ", " formatted)
  | c :: rest, formatted =>
    match formatValue f row c with
    | .text s => formatValues f row rest (formatted ++ [s])
    | o => o

/-- The loop over the rows from `row` on, generated_as_exec.rs:213-250. `fails` is whether the expression cannot be evaluated for a batch. -/
def failingRow (f : Format) (fails : Batch → Bool) (b : Batch) (row : Nat) : Outcome :=
  if row < b.rows then
    if fails (b.slice row) then formatValues f row b.columns [] else failingRow f fails b (row + 1)
  else .text "Unknown Row"
termination_by b.rows - row

/-- The error that is returned for a column that cannot be computed, generated_as_exec.rs:278-299; `none` if it can. `cause` is the error of the expression. -/
def generate (f : Format) (fails : Batch → Bool) (name cause : String) (b : Batch) : Option Outcome :=
  if fails b then
    match failingRow f fails b 0 with
    | .text row => some (.error ("Failed to compute '" ++ name ++ "' for {" ++ row ++ "} due to: " ++ cause))
    | o => some o
  else none

/-- A generated column: its name, whether its expression fails for a batch, and the error of the expression. -/
structure Generated where
  name : String
  fails : Batch → Bool
  cause : String

/-- The loop over the generated columns, generated_as_exec.rs:272-300. The result is the first error; `none` if all columns are computed. -/
def generateAll (f : Format) (b : Batch) : List Generated → Option Outcome
  | [] => none
  | g :: rest =>
    match generate f g.fails g.name g.cause b with
    | none => generateAll f b rest
    | some o => some o

end ModelarDB.Model.FailingRow
