/-
The buffers and the memory for uncompressed data that are shared by the ingestion thread and requests that change the memory.

Source: crates/modelardb_server/src/storage/uncompressed_data_manager.rs, uncompressed_data_buffer.rs, types.rs and mod.rs.

Simplifications:
* A step is one operation on the shared memory or one of the maps, or writing or reading one file. Between two steps of one thread the others can do any steps.
* `DashMap`, `Mutex` and the channels are linearizable, so each of their operations is one step. A map is iterated over in one step. The reference into the map of
  buffers on disk that the ingestion thread has while it reads a file excludes changes of the entry, so reading is one step.
* A request that changes the memory and a flush exclude each other since both have the write lock of the storage engine (configuration.rs:297-301 and context.rs:373-375).
  Requests follow each other since they have the lock of `ConfigurationManager`. Thus a flush is one step.
* There is one ingestion thread and one compression thread, mod.rs:102-135 and configuration.rs:118-126.
* A time series is a number, `calculate_tag_hash` has no collisions (C14), and a row is a number and its time series. The buffers of a time series have a fixed size.
* Files with spilled buffers have different names (C22), and the compression thread can read the files.
* The capacity of a buffer is not changed when it is emptied.
-/
namespace ModelarDB.Model.UncompressedMemory

/-- A row and its time series. -/
structure Row where
  series : Nat
  id : Nat
deriving DecidableEq, Repr

/-- `UNCOMPRESSED_DATA_BUFFER_CAPACITY`, storage/mod.rs:54-58, and `compute_memory_size`, uncompressed_data_buffer.rs:259-264. -/
structure Env where
  capacity : Nat
  size : Nat → Nat

/-- `UncompressedInMemoryDataBuffer`, uncompressed_data_buffer.rs:79-94, and `UncompressedOnDiskDataBuffer`, uncompressed_data_buffer.rs:268-283, with the rows in its file. -/
structure Buffer where
  rows : List Row
  updatedBy : Nat
deriving DecidableEq, Repr

/-- `is_unused`, uncompressed_data_buffer.rs:134-139 and 350-355, with `RECORD_BATCH_OFFSET_REQUIRED_FOR_UNUSED`, uncompressed_data_buffer.rs:40-44. -/
def Buffer.isUnused (b : Buffer) (current : Nat) : Bool := b.updatedBy + 1 ≤ current

/-- A map from time series to buffers. -/
abbrev Buffers := List (Nat × Buffer)

/-- `remove`. -/
def without (m : Buffers) (series : Nat) : Buffers := m.filter fun e => e.1 != series

/-- `insert`. -/
def put (m : Buffers) (series : Nat) (b : Buffer) : Buffers := without m series ++ [(series, b)]

/-- The rows of a time series, none if it has no buffer. -/
def found (m : Buffers) (series : Nat) : List Row :=
  match m.lookup series with
  | none => []
  | some b => b.rows

/-- A buffer that is sent to the compression thread, `UncompressedDataBuffer`, uncompressed_data_buffer.rs:68-74. -/
structure Sent where
  series : Nat
  rows : List Row
  inMemory : Bool
deriving DecidableEq, Repr

/-- Where a thread is in `spill_in_memory_data_buffer`, uncompressed_data_manager.rs:355-401: before a time series is extracted, before its buffer is removed, before it is
written, before it is added to the buffers on disk, before it is added to the buffers in memory again, and before its memory is given back. -/
inductive Spiller where
  | picking
  | removing (series : Nat)
  | writing (series : Nat) (b : Buffer)
  | storing (series : Nat) (b : Buffer)
  | restoring (series : Nat) (updatedBy : Nat)
  | returning (series : Nat)
deriving DecidableEq, Repr

/-- Where the ingestion thread is in `process_uncompressed_messages`, uncompressed_data_manager.rs:102-124, with the rows of the batch that are left: it waits, it is in
`insert_data_point`, uncompressed_data_manager.rs:197-322, or it is in `finish_unused_buffers`, uncompressed_data_manager.rs:405-451. -/
inductive Ingest where
  | waiting
  | looking (row : Row) (rest : List Row)
  | reserving (row : Row) (rest : List Row)
  | spilling (row : Row) (rest : List Row) (spiller : Spiller)
  | reading (row : Row) (rest : List Row)
  | dropping (series : Nat) (rest : List Row) (b : Buffer)
  | putting (series : Nat) (rest : List Row) (b : Buffer) (full : Bool)
  | sending (series : Nat) (rest : List Row)
  | collecting
  | finishing (unused : List Nat) (current : Nat)
  | finishingDisk (unused : List Nat)
  | ended (rest : List Row)
deriving DecidableEq, Repr

/-- A request in `adjust_uncompressed_remaining_memory_in_bytes`, uncompressed_data_manager.rs:602-616: at the condition of the loop if it does not spill. -/
structure Request where
  change : Int
  spiller : Option Spiller
deriving DecidableEq, Repr

/-- The memory, the maps, the channel to the compression thread and the threads. `lost` has the rows that are no longer in any buffer although they have not been
compressed. -/
structure State where
  remaining : Int
  index : Nat
  memory : Buffers
  disk : Buffers
  channel : List Sent
  compressing : Option Sent
  compressed : List Row
  lost : List Row
  ingest : Ingest
  request : Option Request
  aborted : Bool
deriving DecidableEq

/-- A server that has been started, `MemoryPool::new`, types.rs:64-88, and `UncompressedDataManager::try_new`, uncompressed_data_manager.rs:73-98. -/
def State.start (memory : Nat) : State := ⟨memory, 0, [], [], [], none, [], [], .waiting, none, false⟩

/-- What can happen. `batch` and `flush` are messages for the ingestion thread and `change` is a request. `pick` is which buffer is the first when the map is iterated over
and `io` is whether a file can be written or read. `cancel` is that the client of a request goes away. -/
inductive Step where
  | batch (rows : List Row)
  | flush
  | ingest (pick : Nat) (io : Bool)
  | take
  | compress
  | change (by_ : Int)
  | request (pick : Nat) (io : Bool)
  | cancel
deriving DecidableEq, Repr

/-- What a thread that spills a buffer does next. -/
inductive Next where
  | spiller (spiller : Spiller) (s : State)
  | finished (s : State)
  | failed (s : State)
  | aborted

/-- A step of `spill_in_memory_data_buffer`, uncompressed_data_manager.rs:355-401; `none` if `pick` is not a buffer. -/
def State.spill (env : Env) (s : State) (pick : Nat) (io : Bool) : Spiller → Option Next
  -- `iter` and `next`, uncompressed_data_manager.rs:358-365.
  | .picking =>
    match s.memory with
    | [] => some (.failed s)
    | _ :: _ => (s.memory[pick]?).map fun e => .spiller (.removing e.1) s
  -- `remove` and `expect`, uncompressed_data_manager.rs:367-371.
  | .removing series =>
    match s.memory.lookup series with
    | none => some .aborted
    | some b => some (.spiller (.writing series b) { s with memory := without s.memory series })
  -- `spill_to_apache_parquet`, uncompressed_data_buffer.rs:228-243, takes the rows out of the buffer, and `try_spill`, uncompressed_data_buffer.rs:289-322, uses the first
  -- timestamp and writes the file.
  | .writing series b =>
    match b.rows with
    | [] => some .aborted
    | _ :: _ =>
      if io then some (.spiller (.storing series b) s)
      else some (.spiller (.restoring series b.updatedBy) { s with lost := s.lost ++ b.rows })
  -- `insert`, uncompressed_data_manager.rs:387-388.
  | .storing series b => some (.spiller (.returning series) { s with disk := put s.disk series b, lost := s.lost ++ found s.disk series })
  -- `insert`, uncompressed_data_manager.rs:380-384.
  | .restoring series updatedBy => some (.failed { s with memory := put s.memory series ⟨[], updatedBy⟩, lost := s.lost ++ found s.memory series })
  -- `adjust_uncompressed_memory`, uncompressed_data_manager.rs:391-393.
  | .returning series => some (.finished { s with remaining := s.remaining + env.size series })

/-- The next row of the batch, or the end of `insert_data_points`, uncompressed_data_manager.rs:150-176. -/
def Ingest.next : List Row → Ingest
  | [] => .collecting
  | row :: rest => .looking row rest

/-- A step of the ingestion thread. An error ends it, uncompressed_data_manager.rs:107-109. -/
def State.ingestStep (env : Env) (s : State) (pick : Nat) (io : Bool) : Option State :=
  match s.ingest with
  | .waiting => none
  -- `get_mut`, uncompressed_data_manager.rs:219-236.
  | .looking row rest =>
    match s.memory.lookup row.series with
    | none => some { s with ingest := .reserving row rest }
    | some b =>
      let b : Buffer := ⟨b.rows ++ [row], s.index⟩
      some { s with
        memory := put s.memory row.series b
        ingest := if b.rows.length = env.capacity then .sending row.series rest else .next rest }
  -- `wait_for_uncompressed_memory_until`, types.rs:153-179, in `reserve_uncompressed_memory_for_in_memory_data_buffer`, uncompressed_data_manager.rs:335-350. The thread
  -- waits while there is a message in the channel.
  | .reserving row rest =>
    if (env.size row.series : Int) ≤ s.remaining then some { s with remaining := s.remaining - env.size row.series, ingest := .reading row rest }
    else if s.channel.isEmpty then some { s with ingest := .spilling row rest .picking }
    else none
  | .spilling row rest spiller =>
    (s.spill env pick io spiller).map fun
      | .spiller spiller s => { s with ingest := .spilling row rest spiller }
      | .finished s => { s with ingest := .reading row rest }
      | .failed s => { s with ingest := .ended (row :: rest) }
      | .aborted => { s with aborted := true }
  -- `get` and `read_from_apache_parquet`, uncompressed_data_manager.rs:253-268, which deletes the file, or a new buffer, uncompressed_data_manager.rs:275-295.
  | .reading row rest =>
    match s.disk.lookup row.series with
    | none => some { s with ingest := .putting row.series rest ⟨[row], s.index⟩ false }
    | some b =>
      if io then some { s with disk := put s.disk row.series ⟨[], b.updatedBy⟩, ingest := .dropping row.series rest ⟨b.rows ++ [row], s.index⟩ }
      else some { s with ingest := .ended (row :: rest) }
  -- `remove`, uncompressed_data_manager.rs:271.
  | .dropping series rest b =>
    some { s with disk := without s.disk series, lost := s.lost ++ found s.disk series, ingest := .putting series rest b (b.rows.length = env.capacity) }
  -- `insert`, uncompressed_data_manager.rs:272-273 and 297-298.
  | .putting series rest b full =>
    some { s with
      memory := put s.memory series b
      lost := s.lost ++ found s.memory series
      ingest := if full then .sending series rest else .next rest }
  -- `remove`, `expect` and `send`, uncompressed_data_manager.rs:306-318.
  | .sending series rest =>
    match s.memory.lookup series with
    | none => some { s with aborted := true }
    | some b => some { s with memory := without s.memory series, channel := s.channel ++ [⟨series, b.rows, true⟩], ingest := .next rest }
  -- `fetch_add` and the time series of unused buffers in memory, uncompressed_data_manager.rs:175 and 409-414.
  | .collecting =>
    some { s with index := s.index + 1, ingest := .finishing ((s.memory.filter fun e => e.2.isUnused s.index).map Prod.fst) s.index }
  -- `remove`, `expect` and `send`, uncompressed_data_manager.rs:416-424, and the time series of unused buffers on disk, uncompressed_data_manager.rs:430-435.
  | .finishing (series :: unused) current =>
    match s.memory.lookup series with
    | none => some { s with aborted := true }
    | some b => some { s with memory := without s.memory series, channel := s.channel ++ [⟨series, b.rows, true⟩], ingest := .finishing unused current }
  | .finishing [] current => some { s with ingest := .finishingDisk ((s.disk.filter fun e => e.2.isUnused current).map Prod.fst) }
  -- `remove`, `expect` and `send`, uncompressed_data_manager.rs:437-445.
  | .finishingDisk (series :: unused) =>
    match s.disk.lookup series with
    | none => some { s with aborted := true }
    | some b => some { s with disk := without s.disk series, channel := s.channel ++ [⟨series, b.rows, false⟩], ingest := .finishingDisk unused }
  | .finishingDisk [] => some { s with ingest := .waiting }
  | .ended _ => none

/-- A step of a request, `adjust_uncompressed_remaining_memory_in_bytes`, uncompressed_data_manager.rs:602-616. -/
def State.requestStep (env : Env) (s : State) (pick : Nat) (io : Bool) : Option State :=
  match s.request with
  | none => none
  | some ⟨change, none⟩ => if s.remaining < 0 then some { s with request := some ⟨change, some .picking⟩ } else some { s with request := none }
  | some ⟨change, some spiller⟩ =>
    (s.spill env pick io spiller).map fun
      | .spiller spiller s => { s with request := some ⟨change, some spiller⟩ }
      | .finished s => { s with request := some ⟨change, none⟩ }
      | .failed s => { s with remaining := s.remaining - change, request := none }
      | .aborted => { s with aborted := true }

/-- `flush`, uncompressed_data_manager.rs:465-501. -/
def State.flush (s : State) : State :=
  { s with
    memory := []
    disk := []
    channel := s.channel ++ s.memory.map (fun e => ⟨e.1, e.2.rows, true⟩) ++ s.disk.map (fun e => ⟨e.1, e.2.rows, false⟩) }

/-- One step, `none` if it is not possible. Nothing is possible when the server has aborted. -/
def State.step (env : Env) (s : State) (step : Step) : Option State :=
  if s.aborted then none
  else
    match step with
    | .batch rows => if s.ingest = .waiting then some { s with ingest := .next rows } else none
    | .flush => if s.ingest = .waiting ∧ s.request = none then some s.flush else none
    | .ingest pick io => s.ingestStep env pick io
    -- `recv`, uncompressed_data_manager.rs:507.
    | .take =>
      match s.compressing, s.channel with
      | none, sent :: channel => some { s with compressing := some sent, channel := channel }
      | _, _ => none
    -- `compress_finished_buffer`, uncompressed_data_manager.rs:530-596.
    | .compress =>
      match s.compressing with
      | none => none
      | some sent =>
        some { s with compressing := none, compressed := s.compressed ++ sent.rows, remaining := s.remaining + if sent.inMemory then env.size sent.series else 0 }
    | .change change => if s.request = none then some { s with remaining := s.remaining + change, request := some ⟨change, none⟩ } else none
    | .request pick io => s.requestStep env pick io
    -- The future is dropped at its `await` in uncompressed_data_manager.rs:373-375, with the buffer it has.
    | .cancel =>
      match s.request with
      | some ⟨_, some (.writing _ b)⟩ => some { s with request := none, lost := s.lost ++ b.rows }
      | _ => none

/-- A sequence of steps. -/
def State.run (env : Env) (s : State) : List Step → Option State
  | [] => some s
  | step :: steps => (s.step env step).bind fun s => s.run env steps

end ModelarDB.Model.UncompressedMemory
