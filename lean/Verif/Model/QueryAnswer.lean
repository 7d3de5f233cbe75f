import Verif.Spec.QueryPlan
/-
A query of a time series table from the names of its columns to the batches it returns: the plan of Model.QueryPlan is executed with the
operators of Model.QueryStream.

Source: crates/modelardb_storage/src/query/time_series_table.rs and crates/modelardb_storage/src/query/sorted_join_exec.rs.

Simplifications:
* The values of the columns filters are evaluated for are those of Spec.QueryPlan.
* Reading the files of a field gives batches of segments that can depend in any way on which segments the filter keeps.
* The value of a generated column is given by the values of the columns its expression refers to.
-/
namespace ModelarDB.Model.Query
open TableDefinition (Column Failure Metadata Env)
open Spec

/-- What a query returns: the columns, what was returned for each batch and how it ended. -/
structure Answer where
  columns : List Column
  batches : List (Except Failure (List (List Cell)))
  ending : Ending

/-- Everything the answer depends on that is not in the definition of the table and the query. `rest` are the values of the columns of a
segment without a meaning here, `read` are the batches of segments of a field for the segments that are to be kept and `meaning` is the value
of an expression for a batch with a number of rows and the values of the columns it refers to. -/
structure World (ε σ : Type) where
  interpretation : Interpretation
  segment : SegmentOf σ
  rest : σ → Nat → Value
  read : (σ → Bool) → Nat → List (Event (List σ))
  meaning : ε → Nat → List (List Cell) → Option (List Cell)
  hashOrder : List Nat → List Nat
  batchSize : Nat

variable {ε σ : Type}

/-- The columns of a segment a filter is evaluated for. -/
def segmentColumns (w : World ε σ) (m : Metadata ε) (s : σ) : String → Value :=
  lookup (queryCompressedBase ++ tagColumns m) (segmentValues (w.rest s) (w.segment.start s) (w.segment.stop s) (w.segment.tags s))

/-- The columns of a data point a filter is evaluated for. -/
def pointColumns (m : Metadata ε) (p : Point) : String → Value := lookup (gridBase ++ tagColumns m) (pointValues p)

/-- The number of rows of a batch, which is that of its first column. Batches without columns cannot be created (C57). -/
def rowCount : List (List Cell) → Nat
  | [] => 0
  | column :: _ => column.length

/-- The value of a generated column: the columns are found by their names in the batch of stored columns, time_series_table.rs:581-588 and
generated_as_exec.rs:278-284. A value that is the same in all rows is repeated for each row of the batch, `into_array`. -/
def evaluateGenerated (env : Env ε) (w : World ε σ) (schema : List Column) (e : ε) (batch : List (List Cell)) : Option (List Cell) :=
  ((env.refs e).mapM fun name => (TableDefinition.indexOf schema name).bind fun i => batch[i]?).bind (w.meaning e (rowCount batch))

/-- The batches of the join. A batch with another number of columns than its schema is a panic, sorted_join_exec.rs:305-306. -/
def checkedBatches (plan : Plan ε) (read : List (List (List Cell)) × Ending) : List (List (List Cell)) × Ending :=
  if plan.order.length = plan.joinSchema.length then read
  else
    match read with
    | ([], ending) => ([], ending)
    | (_ :: _, _) => ([], .panicked)

/-- `TimeSeriesTable::scan`, time_series_table.rs:504-672, and executing the plan it returns by polling it at most `n` times. -/
def answer (env : Env ε) (w : World ε σ) (m : Metadata ε) (projection : List Nat) (filters : List Expr) (n : Nat) : Except Failure Answer :=
  match planScan env w.hashOrder m projection with
  | .error e => .error e
  | .ok plan =>
    match planFilters m filters with
    | .error e => .error e
    | .ok (parquet, grid) =>
      let keep := fun s => decide (Keeps w.interpretation parquet (segmentColumns w m s))
      let predicate := grid.map fun e p => decide (e.eval w.interpretation (pointColumns m p) = .bool true)
      let inputs := plan.fields.map fun i => (none, GridStream.new (w.read keep i))
      let (batches, ending) := checkedBatches plan
        (drain (pollJoin (tagNamesOf m) plan.order (pollGrid w.segment.points predicate w.batchSize pollEvents)) n inputs)
      .ok ⟨plan.result, batches.map (finish (evaluateGenerated env w plan.joinSchema) plan), ending⟩

end ModelarDB.Model.Query
