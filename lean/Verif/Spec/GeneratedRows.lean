import Verif.Spec.EndToEndRows
/-
Specification of ingesting rows and querying generated columns of them, for C77.
-/
namespace ModelarDB.Spec
open Model Model.Query Model.StoredTable Model.TableDefinition

variable {ε : Type}

/-- The value of an expression in a row only depends on the values of the columns it refers to in the same row. If the expression has no value in
a row it has no value for a batch with the row. `value` is the value of an expression for the values of the columns it refers to. The
expression can refer to no column, then it has the same value in each row. -/
def RowWise (refs : ε → List String) (meaning : ε → Nat → List (List Cell) → Option (List Cell)) (value : ε → List Cell → Option Cell) : Prop :=
  ∀ e, ∀ rows : List (String → Cell),
    meaning e rows.length ((refs e).map fun name => rows.map fun row => row name) = rows.mapM fun row => value e ((refs e).map row)

/-- The value of a column of a table in a row of stored values: the value of its expression for the values of the same row if it is generated. -/
def tableCell (refs : ε → List String) (m : Metadata ε) (value : ε → List Cell → Option Cell) (row : TableRow) (i : Nat) : Option Cell :=
  match m.generated[i]?, m.querySchema[i]? with
  | some (some g), some _ => ((refs g.expr).mapM (storedCell m row)).bind (value g.expr)
  | some none, some c => storedCell m row c.name
  | _, _ => none

/-- A query of a table that reads stored fields. Columns can be generated if they are fields. Each batch of
segments that is read has at least as many data points that satisfy the filter as fit in a batch, except the last. -/
structure ColumnsQuery (env : Env ε) (w : World ε StoredSegment) (m : Metadata ε) (projection : List Nat) (filters : List Expr) : Prop where
  fields : GeneratedFieldsIn m projection
  reads : ReadsStored m projection
  plan : ∃ plan, planScan env w.hashOrder m projection = .ok plan ∧ ∀ i ∈ plan.fields, i ∈ m.fieldIndices
  rewritten : ∃ parquet grid, planFilters m filters = .ok (parquet, grid) ∧ ∀ i ∈ m.fieldIndices,
    FullBatches pointsOf (grid.map fun e p => decide (e.eval w.interpretation (pointColumns m p) = .bool true)) w.batchSize
      (itemsOf (w.read (fun s => decide (Keeps w.interpretation parquet (segmentColumns w m s))) i))
  forward : ∀ f ∈ filters, ¬ ReversedEquality m.schema f
  order : AnyOrder w.hashOrder
  batch : 1 ≤ w.batchSize

/-- What is returned for a part of the rows: the values of the columns if all of them have a value in all rows and an error otherwise. -/
def ReturnsPart (refs : ε → List String) (m : Metadata ε) (value : ε → List Cell → Option Cell) (projection : List Nat) (part : List TableRow)
    (result : Except Failure (List (List Cell))) : Prop :=
  (∃ columns, result = .ok columns ∧
    ((rowsOfColumns columns).map fun cells => cells.map some) = part.map fun row => projection.map fun i => tableCell refs m value row i) ∨
  (result = .error .error ∧ ∃ row ∈ part, ∃ i ∈ projection, tableCell refs m value row i = none)

/-- What a query returns if `ingested` are the rows of the table: for each row a row of stored values is read, and a part of the rows that has all
rows that satisfy the filters is returned. `rows` are the values of the columns of a row. -/
def ReturnsColumns {α : Type} (env : Env ε) (w : World ε StoredSegment) (m : Metadata ε) (projection : List Nat)
    (filters : List Expr) (value : ε → List Cell → Option Cell) (ingestedValue : α → Nat → Nat) (R : Nat → Nat → Nat → Prop)
    (rows : TableRow → String → Value) (ingested : List (Model.Storage.Row α)) : Prop :=
  ∃ (n₀ : Nat) (columns : List Column) (batches : List (Except Failure (List (List Cell)))) (parts : List (List TableRow)) (back : List TableRow),
    (projection.map fun i => m.querySchema[i]?) = columns.map some ∧
    (∀ n, n₀ ≤ n → answer env w m projection filters n = .ok ⟨columns, batches, .finished⟩) ∧
    List.Forall₂ (ReturnsPart env.refs m value projection) parts batches ∧
    List.Forall₂ (ReadRowFor ingestedValue m.fieldIndices R) ingested back ∧
    parts.flatten.Subperm back ∧
    (parts.flatten.filter fun row => Matches w.interpretation filters (rows row)).Perm
      (back.filter fun row => Matches w.interpretation filters (rows row))

end ModelarDB.Spec
