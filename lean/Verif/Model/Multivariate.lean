import Verif.Model.Compression
/-
Compression of batches with many series, crates/modelardb_compression/src/compression.rs.
-/
namespace ModelarDB.Model

/-- A tag value as UTF-8 bytes; strings are compared by these. -/
abbrev Tag := List Nat

/-- A row of a batch: the values of the tag columns in the order of `tag_column_indices`, the timestamp
and the bit pattern in the field column with a given index. -/
structure Row where
  tags : List Tag
  time : Int
  field : Nat → Nat

/-- The segments of one field column of one series, as a batch of segments with its tag values and field
column index (`CompressedSegmentBatchBuilder`, types.rs:413-510). -/
structure CompressedBatch where
  tags : List Tag
  fieldColumn : Nat
  segments : List Segment
  deriving DecidableEq

/-- The order of `lexsort_to_indices` with the sort columns of `sort_time_series_by_tags_and_time`
(compression.rs:111-140): the tag columns in order and then the timestamp, ascending. -/
def rowLe (a b : Row) : Bool :=
  decide (a.tags < b.tags) || (decide (a.tags = b.tags) && decide (a.time ≤ b.time))

/-- Sorting of rows; `lexsort_to_indices` is from the arrow crate and not stable, so the model is
parametrised by it and only its specification (`Spec.SortsRows`) is used. -/
abbrev SortRows := List Row → List Row

/-- `try_split_and_compress_univariate_time_series` (compression.rs:147-179). `fieldColumns` are the
indices in `field_column_indices` and the error bounds for them. An error is a panic due to `expect`. -/
def splitAndCompress (log2 : Log2) (fieldColumns : List (Nat × ErrorBound)) (rows : List Row) (tagValues : List Tag) :
    Option (List CompressedBatch) :=
  fieldColumns.mapM fun column =>
    match tryCompressUnivariate log2 column.2 (rows.map (·.time)) (rows.map (·.field column.1)) with
    | .segments segments => some ⟨tagValues, column.1, segments⟩
    | _ => none

/-- The state of the loop in `try_compress_multivariate_time_series`. -/
structure ScanState where
  tagValues : List Tag
  rowIndexStart : Nat
  compressedData : List CompressedBatch

/-- One iteration of the loop over the sorted rows (compression.rs:67-94). -/
def scanStep (log2 : Log2) (fieldColumns : List (Nat × ErrorBound)) (sorted : List Row) (st : ScanState)
    (row : Row × Nat) : Option ScanState :=
  let isNewTimeSeries := (st.tagValues.zip row.1.tags).any fun p => p.1 != p.2
  if isNewTimeSeries then
    let slice := (sorted.drop st.rowIndexStart).take (row.2 - st.rowIndexStart)
    match splitAndCompress log2 fieldColumns slice st.tagValues with
    | none => none
    | some batches => some ⟨row.1.tags, row.2, st.compressedData ++ batches⟩
  else some st

/-- `try_compress_multivariate_time_series` (compression.rs:42-106); `none` is a panic, which is how
reading the tag values of the first row of an empty batch ends if there are tag columns. -/
def compressMultivariate (log2 : Log2) (sort : SortRows) (tagColumns : Nat) (fieldColumns : List (Nat × ErrorBound))
    (rows : List Row) : Option (List CompressedBatch) :=
  let sorted := sort rows
  let first := if tagColumns = 0 then some [] else sorted.head?.map (·.tags)
  match first with
  | none => none
  | some tagValues =>
    match sorted.zipIdx.foldlM (scanStep log2 fieldColumns sorted) ⟨tagValues, 0, []⟩ with
    | none => none
    | some st =>
      let slice := (sorted.drop st.rowIndexStart).take (sorted.length - st.rowIndexStart)
      match splitAndCompress log2 fieldColumns slice st.tagValues with
      | none => none
      | some batches => some (st.compressedData ++ batches)

end ModelarDB.Model
