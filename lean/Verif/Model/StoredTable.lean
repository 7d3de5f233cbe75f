import Verif.Model.Compression
import Verif.Model.QueryAnswer
import Verif.Model.Storage
/-
What the storage engine stores for a field of a time series table and what a query reads of it. This connects Model.Storage,
Model.Compression and Model.QueryAnswer.

Source: crates/modelardb_server/src/storage/uncompressed_data_manager.rs and crates/modelardb_storage/src/query/grid_exec.rs.

Simplifications:
* The files of the table are not modelled here, see Model.FileOrder: the segments of a field are those of all batches of segments that were
  saved, in some order.
* A segment that cannot be read is a panic, it has no data points here. That there is none is shown beside C73.
-/
namespace ModelarDB.Model.StoredTable
open TableDefinition (Metadata)
open Storage (Chunk)
open Query (Point)

/-- A stored segment: the tags and the columns of a segment, uncompressed_data_manager.rs:554-581. -/
abbrev StoredSegment := List String × Segment

variable {ε α : Type}

/-- The segments of a field for the data points of a buffer, uncompressed_data_manager.rs:563-581. `value` gives the value of the stored
column with an index. A failed compression and a field without an error bound are a panic. -/
def compressField (log2 : Log2) (m : Metadata ε) (value : α → Nat → Nat) (field : Nat) (chunk : Chunk α) : Option (List StoredSegment) :=
  match m.errorBounds[field]? with
  | none => none
  | some errorBound =>
    match tryCompressUnivariate log2 errorBound (chunk.points.map Prod.fst) (chunk.points.map fun p => value p.2 field) with
    | .segments segments => some (segments.map fun s => (chunk.tags, s))
    | _ => none

/-- The segments with a field column of a table for all batches of segments that were saved. Only the columns with the indices of fields are
compressed, uncompressed_data_manager.rs:563-565. -/
def storedSegments (log2 : Log2) (m : Metadata ε) (value : α → Nat → Nat) (field : Nat) (saved : List (Chunk α)) : Option (List StoredSegment) :=
  if field ∈ m.fieldIndices then
    ((saved.filter fun c => c.table = m.name).mapM (compressField log2 m value field)).map List.flatten
  else some []

/-- The data points of a segment, grid_exec.rs:323-346. -/
def pointsOf (s : StoredSegment) : List Point :=
  match grid s.2 with
  | some (ts, vs) => List.zipWith (fun t v => ⟨t, v, s.1⟩) ts vs
  | none => []

/-- A segment as it is seen by a query. -/
def segmentOf : Spec.SegmentOf StoredSegment where
  points := pointsOf
  tags s := s.1
  start s := s.2.startTime
  stop s := s.2.endTime

end ModelarDB.Model.StoredTable
