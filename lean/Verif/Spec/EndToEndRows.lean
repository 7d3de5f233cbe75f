import Verif.Spec.EndToEnd
import Verif.Spec.StorageOrder
/-
Specification of ingesting rows and querying several fields of them, for C74.
-/
namespace ModelarDB.Spec
open Model Model.Query Model.StoredTable

/-- A strict order of lists of tags in which any two different lists are ordered. -/
structure StrictOrder (lt : List String → List String → Prop) : Prop where
  irrefl : ∀ a, ¬ lt a a
  trans : ∀ a b c, lt a b → lt b c → lt a c
  total : ∀ a b, a ≠ b → lt a b ∨ lt b a

/-- A query reads for each field all segments that are to be kept, and possibly others that are stored, each once and sorted by tags and by the
first time. -/
structure ReadsSortedSegments {ε : Type} (w : World ε StoredSegment) (lt : List String → List String → Prop) (fields : List Nat)
    (stored : Nat → List StoredSegment) : Prop where
  stored : ∀ i ∈ fields, ReadsStoredSegments w i (stored i)
  sorted : ∀ i ∈ fields, ∀ keep, segmentOf.Sorted lt (itemsOf (w.read keep i)).flatten

/-- The row that is read for an ingested row: it has the timestamp and the tags of the row and for each field a value that is related to the
value of the row. -/
structure ReadRowFor {α : Type} (value : α → Nat → Nat) (fields : List Nat) (R : Nat → Nat → Nat → Prop) (r : Model.Storage.Row α)
    (row : TableRow) : Prop where
  time : row.time = r.ts
  tags : row.tags = r.tags
  values : ∀ i ∈ fields, R i (value r.val i) (row.values i)

/-- A query of a table for stored columns that reads stored fields. Each batch of segments that is read has at least as many data points that
satisfy the filter as fit in a batch, except the last. -/
structure FieldsQuery {ε : Type} (env : TableDefinition.Env ε) (w : World ε StoredSegment) (m : TableDefinition.Metadata ε) (projection : List Nat)
    (filters : List Expr) : Prop where
  asked : projection ≠ []
  stored : ∀ i ∈ projection, m.generated[i]? = some none
  plan : ∃ plan, planScan env w.hashOrder m projection = .ok plan ∧ ∀ i ∈ plan.fields, i ∈ m.fieldIndices
  rewritten : ∃ parquet grid, planFilters m filters = .ok (parquet, grid) ∧ ∀ i ∈ m.fieldIndices,
    FullBatches pointsOf (grid.map fun e p => decide (e.eval w.interpretation (pointColumns m p) = .bool true)) w.batchSize
      (itemsOf (w.read (fun s => decide (Keeps w.interpretation parquet (segmentColumns w m s))) i))
  forward : ∀ f ∈ filters, ¬ ReversedEquality m.schema f
  order : AnyOrder w.hashOrder
  batch : 1 ≤ w.batchSize

/-- What a query returns if `ingested` are the rows of the table: for each row a row is read, and a part of the rows that has all rows that
satisfy the filters is returned. `rows` are the values of the columns of a row. -/
def ReturnsTableRows {ε α : Type} (env : TableDefinition.Env ε) (w : World ε StoredSegment) (m : TableDefinition.Metadata ε) (projection : List Nat)
    (filters : List Expr) (value : α → Nat → Nat) (R : Nat → Nat → Nat → Prop) (rows : TableRow → String → Value)
    (ingested : List (Model.Storage.Row α)) : Prop :=
  ∃ (n₀ : Nat) (columns : List TableDefinition.Column) (batches : List (List (List Cell))) (back returned : List TableRow),
    (projection.map fun i => m.querySchema[i]?) = columns.map some ∧
    (∀ n, n₀ ≤ n → answer env w m projection filters n = .ok ⟨columns, batches.map .ok, .finished⟩) ∧
    (batches.flatMap rowsOfColumns).map (fun cells => cells.map some) =
      returned.map (fun row => columns.map fun c => storedCell m row c.name) ∧
    List.Forall₂ (ReadRowFor value m.fieldIndices R) ingested back ∧
    returned.Subperm back ∧
    (returned.filter fun row => Matches w.interpretation filters (rows row)).Perm
      (back.filter fun row => Matches w.interpretation filters (rows row))

end ModelarDB.Spec
