/-
The memory for compressed data that is shared by the writer thread and requests that change the memory.

Source: crates/modelardb_server/src/storage/compressed_data_manager.rs, compressed_data_buffer.rs, types.rs and mod.rs.

Simplifications:
* A step is one operation on the shared memory, the map or the queue, or one attempt to save a buffer. Between two steps of one thread the other can do any steps.
* `DashMap`, `SegQueue` and `Mutex` are linearizable, so each of their operations is one step. A buffer is appended to while its entry is locked.
* A request that changes the memory and a flush exclude each other since both have the write lock of the storage engine (configuration.rs:328-332 and
  context.rs:373-375). Requests follow each other since they have the lock of `ConfigurationManager`.
* The amounts are exact. That `value_change` can wrap for values of `2 ^ 63` and above is in C28.
* A batch is a number, a table and the sizes of its record batches. All segments have the schema of their table.
* If a request is cancelled while it saves a buffer it is like one for which saving fails.
-/
namespace ModelarDB.Model.CompressedMemory

/-- `CompressedSegmentBatch`, compressed_data_buffer.rs:28-37, with the size of each record batch. -/
structure Batch where
  id : Nat
  table : String
  sizes : List Nat
deriving DecidableEq, Repr

/-- What `append_compressed_segment_batch` returns, compressed_data_buffer.rs:86-112. -/
def Batch.size (b : Batch) : Nat := b.sizes.sum

/-- What the loop in `append_compressed_segment_batch` adds to the size of the buffer, compressed_data_buffer.rs:101-107: in each iteration the size of all record
batches up to this one. -/
def added : Nat → List Nat → Nat
  | _, [] => 0
  | total, size :: sizes => (total + size) + added (total + size) sizes

/-- `CompressedDataBuffer`, compressed_data_buffer.rs:58-71. -/
structure Buffer where
  size : Nat
  batches : List Batch
deriving DecidableEq, Repr

/-- `append_compressed_segment_batch`, compressed_data_buffer.rs:86-112. -/
def Buffer.append (buffer : Buffer) (b : Batch) : Buffer := ⟨buffer.size + added 0 b.sizes, buffer.batches ++ [b]⟩

/-- Where a thread is that saves buffers: in `save_compressed_data_to_free_memory`, compressed_data_manager.rs:194-205, at the condition or at the `pop` that follows, and in
`save_compressed_data`, compressed_data_manager.rs:240-291, before and after the buffer is removed from the map. -/
inductive Saver where
  | checking
  | taking
  | removing (table : String)
  | writing (table : String) (buffer : Buffer)
deriving DecidableEq, Repr

/-- The writer thread, `process_compressed_messages`, compressed_data_manager.rs:113-135: it waits for a message, inserts a batch in `insert_compressed_segments`,
compressed_data_manager.rs:141-188, or flushes in `flush`, compressed_data_manager.rs:222-234. -/
inductive Writer where
  | waiting
  | pushing (b : Batch)
  | reserving (b : Batch)
  | saving (b : Batch) (saver : Saver)
  | flushing (saver : Saver)
  | ended
deriving DecidableEq, Repr

/-- The memory, the map, the queue, the two threads, what has been written and what has been lost since it could not be written. -/
structure State where
  remaining : Int
  buffers : List (String × Buffer)
  queue : List String
  writer : Writer
  updater : Option Saver
  written : List Batch
  lost : List Batch
  aborted : Bool
deriving DecidableEq

/-- A server that has been started, `MemoryPool::new` in types.rs:64-88. -/
def State.start (memory : Nat) : State := ⟨memory, [], [], .waiting, none, [], [], false⟩

/-- How an attempt to save a buffer ends: with success, with an error of `write_record_batches_with_batch_ids`, or with an error after the buffer was written. -/
inductive Saved where
  | done
  | notWritten
  | failedLater
deriving DecidableEq, Repr

/-- A step of one of the threads. `insert`, `flush` and `change` start to process a message or a request, and the others continue. -/
inductive Step where
  | insert (b : Batch)
  | flush
  | write (saved : Saved)
  | change (by_ : Int)
  | update (saved : Saved)
deriving DecidableEq, Repr

/-- The buffer of a table. -/
def State.buffer (s : State) (table : String) : Option Buffer := s.buffers.lookup table

/-- The map without a table. -/
def without (buffers : List (String × Buffer)) (table : String) : List (String × Buffer) := buffers.filter fun e => e.1 != table

/-- `get_mut` and `append_compressed_segment_batch`, compressed_data_manager.rs:150-155, and `insert`, compressed_data_manager.rs:160-172. -/
def State.put (s : State) (b : Batch) : State :=
  match s.buffer b.table with
  | some _ => { s with buffers := s.buffers.map (fun e => if e.1 = b.table then (e.1, e.2.append b) else e), writer := .reserving b }
  | none => { s with buffers := s.buffers ++ [(b.table, (Buffer.mk 0 []).append b)], writer := .pushing b }

/-- What a thread in one of the loops does next. -/
inductive Next where
  | saver (saver : Saver) (s : State)
  | finished (s : State)
  | failed (s : State)
  | aborted

/-- A step of a thread that saves buffers. `more` is whether the condition of its loop holds. -/
def State.save (s : State) (more : Bool) (saved : Saved) : Saver → Next
  -- The condition, compressed_data_manager.rs:197 and 228.
  | .checking => if more then .saver .taking s else .finished s
  -- `pop` and `expect` or `unwrap`, compressed_data_manager.rs:198-201 and 229.
  | .taking =>
    match s.queue with
    | [] => .aborted
    | table :: queue => .saver (.removing table) { s with queue := queue }
  -- `remove` and `expect`, compressed_data_manager.rs:243-246.
  | .removing table =>
    match s.buffer table with
    | none => .aborted
    | some buffer => .saver (.writing table buffer) { s with buffers := without s.buffers table }
  -- Writing, the write-ahead log, the transfer component and `adjust_compressed_memory`, compressed_data_manager.rs:260-282.
  | .writing _ buffer =>
    match saved with
    | .done => .saver .checking { s with remaining := s.remaining + buffer.size, written := s.written ++ buffer.batches }
    | .notWritten => .failed { s with lost := s.lost ++ buffer.batches }
    | .failedLater => .failed { s with written := s.written ++ buffer.batches }

/-- A step of the writer thread. An error ends it when it inserts, compressed_data_manager.rs:118-121, and is logged when it flushes, compressed_data_manager.rs:209-218. -/
def State.write (s : State) (saved : Saved) : Option State :=
  match s.writer with
  | .waiting => none
  -- `push`, compressed_data_manager.rs:173.
  | .pushing b => some { s with queue := s.queue ++ [b.table], writer := .reserving b }
  -- `try_reserve_compressed_memory`, types.rs:201-215, in the loop in compressed_data_manager.rs:180-186.
  | .reserving b =>
    if (b.size : Int) ≤ s.remaining then some { s with remaining := s.remaining - b.size, writer := .waiting }
    else some { s with writer := .saving b .checking }
  | .saving b saver =>
    match s.save (s.remaining < b.size) saved saver with
    | .saver saver s => some { s with writer := .saving b saver }
    | .finished s => some { s with writer := .reserving b }
    | .failed s => some { s with writer := .ended }
    | .aborted => some { s with aborted := true }
  | .flushing saver =>
    match s.save (!s.queue.isEmpty) saved saver with
    | .saver saver s => some { s with writer := .flushing saver }
    | .finished s => some { s with writer := .waiting }
    | .failed s => some { s with writer := .waiting }
    | .aborted => some { s with aborted := true }
  | .ended => none

/-- A step of a request, `adjust_compressed_remaining_memory_in_bytes`, compressed_data_manager.rs:297-305. -/
def State.update (s : State) (saved : Saved) : Option State :=
  match s.updater with
  | none => none
  | some saver =>
    match s.save (s.remaining < 0) saved saver with
    | .saver saver s => some { s with updater := some saver }
    | .finished s => some { s with updater := none }
    | .failed s => some { s with updater := none }
    | .aborted => some { s with aborted := true }

/-- Whether the writer thread flushes. -/
def Writer.flushes : Writer → Bool
  | .flushing _ => true
  | _ => false

/-- One step, `none` if it is not possible. Nothing is possible when the server has aborted. -/
def State.step (s : State) (step : Step) : Option State :=
  if s.aborted then none
  else
    match step with
    | .insert b => if s.writer = .waiting then some (s.put b) else none
    | .flush => if s.writer = .waiting ∧ s.updater = none then some { s with writer := .flushing .checking } else none
    | .write saved => s.write saved
    | .change change => if s.updater = none ∧ s.writer.flushes = false then some { s with remaining := s.remaining + change, updater := some .checking } else none
    | .update saved => s.update saved

/-- A sequence of steps. -/
def State.run (s : State) : List Step → Option State
  | [] => some s
  | step :: steps => (s.step step).bind fun s => s.run steps

end ModelarDB.Model.CompressedMemory
