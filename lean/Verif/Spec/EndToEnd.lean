import Verif.Model.StoredTable
import Verif.Spec.Storage
import Verif.Spec.Ints
/-
Specification of ingesting rows and querying them, for C73.
-/
namespace ModelarDB.Spec
open Model Model.Query Model.StoredTable

/-- A query reads all segments that are to be kept, and possibly others that are stored, each once. -/
structure ReadsStoredSegments {ε : Type} (w : World ε StoredSegment) (field : Nat) (stored : List StoredSegment) : Prop where
  segment : w.segment = segmentOf
  neverFails : ∀ keep, NeverFails (w.read keep field)
  contents : ∀ keep, ∃ read : List StoredSegment, (itemsOf (w.read keep field)).flatten.Perm read ∧ read.Sublist stored ∧
    (stored.filter keep).Sublist read

/-- The rows of a table. -/
def rowsOfTable {α : Type} (table : String) (rows : List (Model.Storage.Row α)) : List (Model.Storage.Row α) :=
  rows.filter fun r => r.table = table

/-- The data point that is read for an ingested row: it has the timestamp and the tags of the row and a value that is related to the value
of the row. -/
structure ReadFor {α : Type} (value : α → Nat → Nat) (field : Nat) (R : Nat → Nat → Prop) (r : Model.Storage.Row α) (p : Point) : Prop where
  time : p.time = r.ts
  tags : p.tags = r.tags
  value : R (value r.val field) p.value

/-- A row of a table of which only one field is known. -/
def rowOfPoint (p : Point) : TableRow := ⟨p.time, p.tags, fun _ => p.value⟩

/-- The rows of a table can be ingested: they have a value for each tag, the timestamps are 64-bit integers and the values of the field are
32-bit floating-point numbers that are not NaN. -/
structure WellFormed {α : Type} (numTags : Nat) (value : α → Nat → Nat) (field : Nat) (r : Model.Storage.Row α) : Prop where
  tags : r.tags.length = numTags
  time : IsI64 r.ts
  bits : value r.val field < 2 ^ 32
  number : (FVal.ofBits32 (value r.val field)).isNan = false

/-- A query of a table for stored columns, of which at most one is a field. `field` is the field that is read, which is the one that is asked
for or another one if none is. -/
structure OneFieldQuery {ε : Type} (env : TableDefinition.Env ε) (w : World ε StoredSegment) (m : TableDefinition.Metadata ε) (projection : List Nat)
    (filters : List Expr) (field : Nat) : Prop where
  asked : projection ≠ []
  stored : ∀ i ∈ projection, m.generated[i]? = some none
  plan : ∃ plan, planScan env w.hashOrder m projection = .ok plan ∧ plan.fields = [field]
  rewritten : ∃ parquet grid, planFilters m filters = .ok (parquet, grid)
  forward : ∀ f ∈ filters, ¬ ReversedEquality m.schema f
  order : AnyOrder w.hashOrder
  batch : 1 ≤ w.batchSize

/-- A row satisfies all filters of a query. -/
def Matches (I : Interpretation) (filters : List Expr) (row : String → Value) : Bool := filters.all fun f => f.eval I row = .bool true

/-- What a query returns if `ingested` are the rows of the table: for each row a data point is read, and a part of the data points that has all
data points that satisfy the filters is returned. `rows` is the row of a data point. -/
def ReturnsRows {ε α : Type} (env : TableDefinition.Env ε) (w : World ε StoredSegment) (m : TableDefinition.Metadata ε) (projection : List Nat)
    (filters : List Expr) (field : Nat) (value : α → Nat → Nat) (R : Nat → Nat → Prop) (rows : Point → String → Value)
    (ingested : List (Model.Storage.Row α)) : Prop :=
  ∃ (n₀ : Nat) (columns : List TableDefinition.Column) (batches : List (List (List Cell))) (back returned : List Point),
    (projection.map fun i => m.querySchema[i]?) = columns.map some ∧
    (∀ n, n₀ ≤ n → answer env w m projection filters n = .ok ⟨columns, batches.map .ok, .finished⟩) ∧
    (batches.flatMap rowsOfColumns).map (fun cells => cells.map some) =
      returned.map (fun p => columns.map fun c => storedCell m (rowOfPoint p) c.name) ∧
    List.Forall₂ (ReadFor value field R) ingested back ∧
    returned.Subperm back ∧
    (returned.filter fun p => Matches w.interpretation filters (rows p)).Perm (back.filter fun p => Matches w.interpretation filters (rows p))

end ModelarDB.Spec
