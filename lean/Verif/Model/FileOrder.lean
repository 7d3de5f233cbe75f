import Verif.Model.StoredTable
/-
The files the segments of a field are written to and the order in which a query reads them. This refines Model.StoredTable, in which the files
are not modelled.

Source: crates/modelardb_storage/src/data_folder/delta_table_writer.rs, crates/modelardb_storage/src/query/time_series_table.rs and
crates/modelardb_storage/src/query/grid_exec.rs. What `DeltaWriter` of deltalake and `FileScanConfig` of DataFusion do is modelled from their
documentation and source.

Simplifications:
* The size of a file is given by a function that says if the segments in a file have reached the target size of a file.
* Segments are read from files in one batch.
-/
namespace ModelarDB.Model.FileOrder
open TableDefinition (Metadata Column compressedSchemaBase)
open Storage (Chunk)
open StoredTable Query

variable {ε α : Type}

/-- The files `DeltaWriter` makes of the batches of one partition, delta_table_writer.rs:149-163 and 185-187. A file ends after the batch with
which it has reached the target size, `current` are the segments in the file that is being written. The segments are not sorted: that the
segments in a file are sorted is only stated in the metadata of the file, delta_table_writer.rs:64-91 and lib.rs:247-261. -/
def rollOver {σ : Type} (full : List σ → Bool) : List σ → List (List σ) → List (List σ)
  | current, [] => if current.isEmpty then [] else [current]
  | current, batch :: batches =>
    if full (current ++ batch) then (current ++ batch) :: rollOver full [] batches else rollOver full (current ++ batch) batches

/-- The files with the segments of a field that are written by the saves of compressed buffers, compressed_data_manager.rs:236-291 and
data_folder/mod.rs:718-732. Each save writes files of its own, and the segments of a field are in files of their own as the table is partitioned
by the field, delta_table_writer.rs:65. -/
def fieldFiles (log2 : Log2) (m : Metadata ε) (value : α → Nat → Nat) (full : List StoredSegment → Bool) (field : Nat) (saves : List (List (Chunk α))) :
    Option (List (List StoredSegment)) :=
  if field ∈ m.fieldIndices then
    (saves.mapM fun (save : List (Chunk α)) =>
      ((save.filter fun c => c.table = m.name).mapM (compressField log2 m value field)).map (rollOver full [])).map List.flatten
  else some []

/-- If the plan that reads the files of a field declares that its output is sorted. The files are in one group and have no statistics,
time_series_table.rs:412-451. `FileScanConfig` keeps the declared order of a group with at most one file, and drops it for a group with several
files as it cannot be checked without statistics. -/
def declaresOrder {σ : Type} (files : List (List σ)) : Bool := decide (files.length ≤ 1)

/-- The segments of a field that are to be kept in the order in which they are read. `GridExec` requires segments that are sorted,
grid_exec.rs:193-195, so a sort is added to the plan if the order is not declared. -/
def readFiles {σ : Type} (sort : List σ → List σ) (keep : σ → Bool) (files : List (List σ)) : List σ :=
  if declaresOrder files then files.flatten.filter keep else sort (files.flatten.filter keep)

/-- The columns the files state to be sorted by, delta_table_writer.rs:67-89: the indices of the tags in the schema of the table, which has the
column the table is partitioned by before the tags, and the index of the first time. -/
def sortingColumns (m : Metadata ε) : List Nat :=
  (List.range' compressedSchemaBase.length (m.compressedSchema.length - compressedSchemaBase.length)) ++ [1]

/-- The columns of the files of a table, schemas.rs:38-40. The column the table is partitioned by is not in the files. -/
def fileColumns (m : Metadata ε) : List Column := m.compressedSchema.filter fun c => c.name ≠ "field_column"

end ModelarDB.Model.FileOrder
