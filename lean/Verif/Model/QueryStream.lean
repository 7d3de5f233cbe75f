/-
The operators that read time series tables: `GridExec`, which reconstructs the data points of one field from compressed segments, and
`SortedJoinExec`, which puts the fields together.

Source: crates/modelardb_storage/src/query/grid_exec.rs, crates/modelardb_storage/src/query/sorted_join_exec.rs and, for the files that are
read, crates/modelardb_storage/src/query/time_series_table.rs.

Simplifications:
* A stream is polled; a poll gives a result and a new state. Wakers and metrics are not modelled.
* Reconstructing a segment is a function from segments to data points, see Model.Compression for it. That it does not panic is assumed.
* A batch of data points is a list of data points instead of one array for each column. The batches that are returned by the join are
  lists of columns as in the code.
* A predicate is a function of a data point. A comparison with null is not true.
-/
namespace ModelarDB.Model.Query

/-- The result of polling a stream: `Poll::Pending`, `Poll::Ready(Some(Ok(_)))`, `Poll::Ready(Some(Err(_)))` and `Poll::Ready(None)`. -/
inductive Poll (α : Type) where
  | pending
  | item (a : α)
  | error
  | done
deriving DecidableEq

/-- A stream: what polling its state gives. -/
abbrev Poller (S α : Type) := S → Poll α × S

/-- What an input stream does each time it is polled before it is finished. -/
inductive Event (α : Type) where
  | pending
  | item (a : α)
  | error
deriving DecidableEq

/-- An input stream is a list of events. It is finished after the last. -/
def pollEvents {α : Type} : Poller (List (Event α)) α
  | [] => (.done, [])
  | .pending :: es => (.pending, es)
  | .item a :: es => (.item a, es)
  | .error :: es => (.error, es)

/-- A data point of one field: the columns of `GRID_SCHEMA`, schemas.rs:67-72, and the tags. -/
structure Point where
  time : Int
  value : Nat
  tags : List String
deriving DecidableEq

/-! ### GridStream -/

/-- `GridStream`, grid_exec.rs:211-228. The input stream is `input`. -/
structure GridStream (S : Type) where
  input : S
  current : List Point
  offset : Nat

/-- The batch size of `GridStream::new`, grid_exec.rs:231-257. -/
def gridBatchSize (limit : Option Nat) (batchSize : Nat) : Nat :=
  match limit with
  | some limit => min limit batchSize
  | none => batchSize

/-- The segments that are read for a field, time_series_table.rs:412-451: the files are read in the order of their modification times and at
most `limit` segments are read. The crate datafusion sorts the segments after they are read. -/
def readSegments {σ : Type} (limit : Option Nat) (files : List (List σ)) : List σ :=
  match limit with
  | some limit => files.flatten.take limit
  | none => files.flatten

/-- `GridStream::new`, grid_exec.rs:231-257. -/
def GridStream.new {S : Type} (input : S) : GridStream S := ⟨input, [], 0⟩

/-- `grid_and_append_to_leftovers_in_current_batch`, grid_exec.rs:259-391: the new current batch, its offset is zero. -/
def gridAndAppend {σ : Type} (points : σ → List Point) (predicate : Option (Point → Bool)) (current : List Point) (offset : Nat)
    (batch : List σ) : List Point :=
  let all := current.drop offset ++ batch.flatMap points
  match predicate with
  | some p => all.filter p
  | none => all

/-- The end of `poll_next`, grid_exec.rs:418-428: it returns the next data points of the current batch. -/
def emitNext {S : Type} (batchSize : Nat) (stream : GridStream S) : Poll (List Point) × GridStream S :=
  let remaining := stream.current.length - stream.offset
  let length := min batchSize remaining
  let batch := (stream.current.drop stream.offset).take length
  (.item batch, { stream with offset := stream.offset + batch.length })

/-- `GridStream::poll_next`, grid_exec.rs:398-429. -/
def pollGrid {σ S : Type} (points : σ → List Point) (predicate : Option (Point → Bool)) (batchSize : Nat) (poll : Poller S (List σ)) :
    Poller (GridStream S) (List Point) := fun stream =>
  if stream.current.length - stream.offset < batchSize then
    match poll stream.input with
    | (.item batch, input) => emitNext batchSize ⟨input, gridAndAppend points predicate stream.current stream.offset batch, 0⟩
    | (.done, input) =>
      if stream.offset < stream.current.length then emitNext batchSize { stream with input } else (.done, { stream with input })
    | (.pending, input) => (.pending, { stream with input })
    | (.error, input) => (.error, { stream with input })
  else emitNext batchSize stream

/-! ### SortedJoinStream -/

/-- `SortedJoinColumnType`, sorted_join_exec.rs:45-52. -/
inductive JoinColumn where
  | timestamp
  | field
  | tag (name : String)
deriving DecidableEq

/-- A value in a column. -/
inductive Cell where
  | time (t : Int)
  | value (v : Nat)
  | tag (s : String)
deriving DecidableEq

/-- `poll_all_pending_inputs`, sorted_join_exec.rs:229-247: it polls the inputs without a batch in order and returns the result of the last
poll that did not give a batch. The inputs are kept with their batches. -/
def pollInputs {S : Type} (poll : Poller S (List Point)) (reason : Option (Poll (List Point))) :
    List (Option (List Point) × S) → Option (Poll (List Point)) × List (Option (List Point) × S)
  | [] => (reason, [])
  | (some batch, s) :: slots =>
    let (reason, slots) := pollInputs poll reason slots
    (reason, (some batch, s) :: slots)
  | (none, s) :: slots =>
    match poll s with
    | (.item batch, s) =>
      let (reason, slots) := pollInputs poll reason slots
      (reason, (some batch, s) :: slots)
    | (other, s) =>
      let (reason, slots) := pollInputs poll (some other) slots
      (reason, (none, s) :: slots)

/-- The smallest number of rows, sorted_join_exec.rs:258-264. -/
def smallest : List (List Point) → Nat
  | [] => 0
  | [b] => b.length
  | b :: bs => min b.length (smallest bs)

/-- `set_batch_num_rows_to_smallest`, sorted_join_exec.rs:249-273. -/
def sliceToSmallest (batches : List (List Point)) : List (List Point) := batches.map fun b => b.take (smallest batches)

/-- The column of `batch` with the tag `name`, sorted_join_exec.rs:295-302. It is the first column with the name in the schema of the batch,
which starts with the columns `timestamp` and `value` (schemas.rs:66-72). A tag that is not in the schema is a panic, and so is a column with
another type than a tag as the batch that is returned cannot be created (sorted_join_exec.rs:306-307). -/
def tagColumn (tagNames : List String) (name : String) (batch : List Point) : Option (List Cell) :=
  match ("timestamp" :: "value" :: tagNames).findIdx? (· == name) with
  | none => none
  | some 0 => none
  | some 1 => none
  | some (i + 2) => batch.mapM fun point => point.tags[i]?.map Cell.tag

/-- The loop of `sorted_join`, sorted_join_exec.rs:283-304. `first` is the batch of the first input and `batches` are the batches of the
fields that are not used yet. -/
def joinColumns (tagNames : List String) (first : List Point) : List JoinColumn → List (List Point) → Option (List (List Cell))
  | [], _ => some []
  | .timestamp :: order, batches =>
    (joinColumns tagNames first order batches).map fun columns => (first.map fun point => Cell.time point.time) :: columns
  | .field :: _, [] => none
  | .field :: order, batch :: batches =>
    (joinColumns tagNames first order batches).map fun columns => (batch.map fun point => Cell.value point.value) :: columns
  | .tag name :: order, batches =>
    (tagColumn tagNames name first).bind fun column =>
      (joinColumns tagNames first order batches).map fun columns => column :: columns

/-- `sorted_join`, sorted_join_exec.rs:275-310. A batch without columns cannot be created as `RecordBatch::try_new` does not know how many
rows it has, which is a panic. -/
def sortedJoin (tagNames : List String) (order : List JoinColumn) (batches : List (List Point)) : Option (List (List Cell)) :=
  match batches with
  | [] => none
  | first :: _ => if order.isEmpty then none else joinColumns tagNames first order batches

/-- The batches of the inputs if all inputs have one. -/
def allBatches {S : Type} : List (Option (List Point) × S) → Option (List (List Point))
  | [] => some []
  | (some b, _) :: slots => (allBatches slots).map (b :: ·)
  | (none, _) :: _ => none

/-- `SortedJoinStream::poll_next`, sorted_join_exec.rs:317-335. `none` is a panic. -/
def pollJoin {S : Type} (tagNames : List String) (order : List JoinColumn) (poll : Poller S (List Point))
    (slots : List (Option (List Point) × S)) : Option (Poll (List (List Cell)) × List (Option (List Point) × S)) :=
  match pollInputs poll none slots with
  | (some .pending, slots) => some (.pending, slots)
  | (some .error, slots) => some (.error, slots)
  | (some .done, slots) => some (.done, slots)
  | (some (.item _), _) => none
  | (none, slots) => do
    let batches ← allBatches slots
    let columns ← sortedJoin tagNames order (sliceToSmallest batches)
    return (.item columns, slots.map fun slot => (none, slot.2))

/-! ### Consuming a stream -/

/-- How reading a stream ended. -/
inductive Ending where
  | finished
  | failed
  | panicked
  | running
deriving DecidableEq

/-- Polling a stream at most `n` times until it is finished or fails: the items that were returned and how it ended. -/
def drain {S α : Type} (poll : S → Option (Poll α × S)) : Nat → S → List α × Ending
  | 0, _ => ([], .running)
  | n + 1, s =>
    match poll s with
    | none => ([], .panicked)
    | some (.pending, s) => drain poll n s
    | some (.item a, s) => let (items, ending) := drain poll n s; (a :: items, ending)
    | some (.error, _) => ([], .failed)
    | some (.done, _) => ([], .finished)

end ModelarDB.Model.Query
