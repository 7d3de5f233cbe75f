/-
The storage engine of the server: uncompressed buffers, compressed buffers, the memory pool and the three
threads connected by channels.

Source: crates/modelardb_server/src/storage/{mod,types,uncompressed_data_manager,uncompressed_data_buffer,
compressed_data_manager,compressed_data_buffer}.rs

Simplifications:
* The values of the field columns of a row are one opaque value of a type `α`. The time series table metadata
  is represented by the name of the table.
* `DashMap`s are lists of buffers with an operation `touch…` that moves any element to the front, so
  the arbitrary iteration order of the maps is covered.
* Compressing the rows of a buffer (C01 to C14) is not repeated here: a batch of compressed segments consists of
  the rows it represents and the sizes of the segments for each field column.
* `configuration.rs:116-129` only accepts one thread per component, so there is one of each thread.
* The counters are unbounded integers and batch indices are unbounded.
* Processing one row, compressing one buffer and saving compressed segments are atomic. The configuration is not
  changed in the middle of them.
-/
namespace ModelarDB.Model.Storage

/-- A row of a time series table. -/
structure Row (α : Type) where
  table : String
  tags : List String
  ts : Int
  val : α
deriving DecidableEq, Repr

/-- What the model is parametric in. -/
structure Env (α : Type) where
  /-- `UNCOMPRESSED_DATA_BUFFER_CAPACITY`, storage/mod.rs:53-58, is 64 * 1024. -/
  capacity : Nat
  /-- `DefaultHasher` applied to all bytes written to it. The number of bytes per call of `write` does not matter. -/
  hasher : List UInt8 → Nat
  /-- The number of field columns of a table. -/
  numFields : String → Nat
  /-- `sort_to_indices` and `take` from Apache Arrow. -/
  sort : List (Int × α) → List (Int × α)
  /-- `size_of_compressed_segments` for the segments of each field column, compressed_data_buffer.rs:124-138. -/
  segmentSizes : String → List (Int × α) → List Nat

variable {α : Type}

/-- `calculate_tag_hash`, uncompressed_data_manager.rs:619-630. -/
def calculateTagHash (env : Env α) (table : String) (tags : List String) : Nat :=
  env.hasher (tags.flatMap (fun tag => tag.toUTF8.data.toList) ++ table.toUTF8.data.toList)

/-- `compute_memory_size`, uncompressed_data_buffer.rs:259-264. -/
def computeMemorySize (env : Env α) (table : String) : Nat :=
  env.capacity * 8 + env.numFields table * (env.capacity * 4)

/-- `UncompressedInMemoryDataBuffer`, uncompressed_data_buffer.rs:76-94. -/
structure MemoryBuffer (α : Type) where
  hash : Nat
  table : String
  tags : List String
  updatedBy : Nat
  points : List (Int × α)
  batchIds : List Nat
deriving DecidableEq

/-- The name of a spilled buffer, uncompressed_data_buffer.rs:408-414. -/
structure Path where
  table : String
  hash : Nat
  first : Int
deriving DecidableEq

/-- An Apache Parquet file with a spilled buffer. The tag columns hold the same tags in every row. -/
structure SpilledFile (α : Type) where
  path : Path
  tags : List String
  points : List (Int × α)
deriving DecidableEq

/-- `UncompressedOnDiskDataBuffer`, uncompressed_data_buffer.rs:266-282. `ghost` is what was written to the file.
It is only used to state properties, no function reads it. -/
structure DiskBuffer (α : Type) where
  hash : Nat
  table : String
  updatedBy : Nat
  path : Path
  batchIds : List Nat
  ghost : SpilledFile α
deriving DecidableEq

/-- `UncompressedDataBuffer`, uncompressed_data_buffer.rs:68-74. -/
inductive Buffer (α : Type) where
  | inMemory (b : MemoryBuffer α)
  | onDisk (d : DiskBuffer α)
deriving DecidableEq

/-- `Message`, types.rs:221-226. The number in the control messages is only used to state properties: it is the
number of rows received before the request. -/
inductive Message (τ : Type) where
  | data (x : τ)
  | flush (ghost : Nat)
  | stop (ghost : Nat)
deriving DecidableEq

/-- `IngestedDataBuffer`, uncompressed_data_buffer.rs:44-52. `size` is `get_array_memory_size()` of the rows. -/
structure Ingested (α : Type) where
  rows : List (Row α)
  batchId : Option Nat
  size : Nat
deriving DecidableEq

/-- `CompressedSegmentBatch`, compressed_data_buffer.rs:26-37: the rows represented by the segments and the sizes of the
segments of each field column. -/
structure Chunk (α : Type) where
  table : String
  tags : List String
  points : List (Int × α)
  sizes : List Nat
  batchIds : List Nat
deriving DecidableEq

/-- `UncompressedDataManager`, uncompressed_data_manager.rs:44-67, with the channel to the compressor, the remaining
uncompressed memory and the files with spilled buffers. `unreserved` is only used to state properties: it is the
amount of memory that was given to buffers without reserving it. -/
structure Uncompressed (α : Type) where
  batchIndex : Nat
  inMemory : List (MemoryBuffer α)
  onDisk : List (DiskBuffer α)
  files : List (SpilledFile α)
  remaining : Int
  channel : List (Message (Buffer α))
  unreserved : Nat
deriving DecidableEq

/-- The outcome of a function of the uncompressed data manager: success, the thread has to wait for
memory, an error after which the manager is in a state, or a panic. -/
inductive Outcome (σ : Type) where
  | ok (s : σ)
  | wait
  | failed (s : σ)
  | panic
deriving DecidableEq

/-- `DashMap::insert`. -/
def putMemory (m : List (MemoryBuffer α)) (b : MemoryBuffer α) : List (MemoryBuffer α) :=
  m.filter (fun x => x.hash ≠ b.hash) ++ [b]

/-- `DashMap::insert`. -/
def putDisk (m : List (DiskBuffer α)) (b : DiskBuffer α) : List (DiskBuffer α) :=
  m.filter (fun x => x.hash ≠ b.hash) ++ [b]

/-- `UncompressedInMemoryDataBuffer::new`, uncompressed_data_buffer.rs:97-118. -/
def MemoryBuffer.new (hash : Nat) (tags : List String) (table : String) (batchIndex : Nat) (batchIds : List Nat) :
    MemoryBuffer α :=
  ⟨hash, table, tags, batchIndex, [], batchIds⟩

/-- `insert_data_point` of a buffer, uncompressed_data_buffer.rs:139-159. -/
def MemoryBuffer.insert (b : MemoryBuffer α) (batchIndex : Nat) (ts : Int) (val : α) : MemoryBuffer α :=
  { b with updatedBy := batchIndex, points := b.points ++ [(ts, val)] }

/-- `insert_batch_id`, uncompressed_data_buffer.rs:161-166. -/
def MemoryBuffer.insertBatchId (b : MemoryBuffer α) (batchId : Option Nat) : MemoryBuffer α :=
  match batchId with
  | none => b
  | some id => { b with batchIds := if id ∈ b.batchIds then b.batchIds else b.batchIds ++ [id] }

/-- `is_full`, uncompressed_data_buffer.rs:120-124. -/
def MemoryBuffer.isFull (env : Env α) (b : MemoryBuffer α) : Bool := b.points.length == env.capacity

/-- `is_unused`, uncompressed_data_buffer.rs:132-137. -/
def MemoryBuffer.isUnused (b : MemoryBuffer α) (batchIndex : Nat) : Bool := b.updatedBy + 1 ≤ batchIndex

/-- `is_unused`, uncompressed_data_buffer.rs:350-355. -/
def DiskBuffer.isUnused (b : DiskBuffer α) (batchIndex : Nat) : Bool := b.updatedBy + 1 ≤ batchIndex

/-- `record_batch` of a buffer on disk, uncompressed_data_buffer.rs:324-338: read the file and delete it. -/
def readFile (files : List (SpilledFile α)) (path : Path) : Option (SpilledFile α × List (SpilledFile α)) :=
  match files.find? (fun f => f.path = path) with
  | none => none
  | some f => some (f, files.filter (fun f => f.path ≠ path))

/-- Writing a file replaces an existing file with the same path. -/
def writeFile (files : List (SpilledFile α)) (f : SpilledFile α) : List (SpilledFile α) :=
  files.filter (fun g => g.path ≠ f.path) ++ [f]

/-- `read_from_apache_parquet`, uncompressed_data_buffer.rs:357-395. -/
def readBack (d : DiskBuffer α) (files : List (SpilledFile α)) (batchIndex : Nat) :
    Option (MemoryBuffer α × List (SpilledFile α)) :=
  match readFile files d.path with
  | none => none
  | some (f, files) =>
    some (f.points.foldl (fun b p => b.insert batchIndex p.1 p.2) (.new d.hash f.tags d.table batchIndex d.batchIds), files)

/-- `spill_in_memory_data_buffer`, uncompressed_data_manager.rs:352-401, `spill_to_apache_parquet` and
`try_spill`, uncompressed_data_buffer.rs:226-243 and 285-322. `io` is whether the file could be written. `record_batch` takes the
points out of the buffer, so if the file could not be written the buffer is put back without them. The first timestamp of a
buffer without points does not exist. That the buffer has a smaller capacity afterwards is not modelled. -/
def spill (env : Env α) (io : Bool) (s : Uncompressed α) : Outcome (Uncompressed α) :=
  match s.inMemory with
  | [] => .failed s
  | b :: rest =>
    match env.sort b.points with
    | [] => .panic
    | p :: ps =>
      let file : SpilledFile α := ⟨⟨b.table, b.hash, p.1⟩, b.tags, p :: ps⟩
      if io then
        .ok { s with
          inMemory := rest
          onDisk := putDisk s.onDisk ⟨b.hash, b.table, b.updatedBy, file.path, b.batchIds, file⟩
          files := writeFile s.files file
          remaining := s.remaining + computeMemorySize env b.table }
      else .failed { s with inMemory := { b with points := [] } :: rest }

/-- `reserve_uncompressed_memory_for_in_memory_data_buffer`, uncompressed_data_manager.rs:324-350, and
`wait_for_uncompressed_memory_until`, types.rs:150-179. -/
def reserve (env : Env α) (io : Bool) (s : Uncompressed α) (table : String) : Outcome (Uncompressed α) :=
  if (computeMemorySize env table : Int) ≤ s.remaining then
    .ok { s with remaining := s.remaining - computeMemorySize env table }
  else if s.channel.isEmpty then
    match spill env io s with
    | .ok s => .ok { s with unreserved := s.unreserved + computeMemorySize env table }
    | o => o
  else .wait

/-- The end of `insert_data_point`: a full buffer is sent to the compressor, uncompressed_data_manager.rs:302-321. -/
def placeBuffer (env : Env α) (s : Uncompressed α) (b : MemoryBuffer α) : Uncompressed α :=
  if b.isFull env then
    { s with inMemory := s.inMemory.filter (fun x => x.hash ≠ b.hash), channel := s.channel ++ [.data (.inMemory b)] }
  else { s with inMemory := putMemory s.inMemory b }

/-- `insert_data_point`, uncompressed_data_manager.rs:191-322. -/
def insertDataPoint (env : Env α) (io : Bool) (s : Uncompressed α) (r : Row α) (batchId : Option Nat) :
    Outcome (Uncompressed α) :=
  let hash := calculateTagHash env r.table r.tags
  match s.inMemory.find? (fun b => b.hash = hash) with
  | some b => .ok (placeBuffer env s ((b.insert s.batchIndex r.ts r.val).insertBatchId batchId))
  | none =>
    match reserve env io s r.table with
    | .ok s =>
      match s.onDisk.find? (fun d => d.hash = hash) with
      | some d =>
        match readBack d s.files s.batchIndex with
        | none => .failed s
        | some (b, files) =>
          .ok (placeBuffer env { s with files := files, onDisk := s.onDisk.filter (fun x => x.hash ≠ hash) }
            ((b.insert s.batchIndex r.ts r.val).insertBatchId batchId))
      | none =>
        .ok { s with
          inMemory := putMemory s.inMemory
            ((MemoryBuffer.new hash r.tags r.table s.batchIndex batchId.toList).insert s.batchIndex r.ts r.val) }
    | o => o

/-- `finish_unused_buffers`, uncompressed_data_manager.rs:403-451. -/
def finishUnusedBuffers (s : Uncompressed α) (batchIndex : Nat) : Uncompressed α :=
  { s with
    inMemory := s.inMemory.filter (fun b => !b.isUnused batchIndex)
    onDisk := s.onDisk.filter (fun d => !d.isUnused batchIndex)
    channel := s.channel ++ (s.inMemory.filter (fun b => b.isUnused batchIndex)).map (fun b => .data (.inMemory b)) ++
      (s.onDisk.filter (fun d => d.isUnused batchIndex)).map (fun d => .data (.onDisk d)) }

/-- `flush`, uncompressed_data_manager.rs:462-501. -/
def flushUncompressed (s : Uncompressed α) : Uncompressed α :=
  { s with
    inMemory := []
    onDisk := []
    channel := s.channel ++ s.inMemory.map (fun b => .data (.inMemory b)) ++ s.onDisk.map (fun d => .data (.onDisk d)) }

/-- The end of `insert_data_points`, uncompressed_data_manager.rs:173-176. -/
def finishBatch (s : Uncompressed α) : Uncompressed α :=
  finishUnusedBuffers { s with batchIndex := s.batchIndex + 1 } s.batchIndex

/-- The loop in `adjust_uncompressed_remaining_memory_in_bytes`, uncompressed_data_manager.rs:608-613. Every iteration removes a
buffer, so `fuel` is the number of buffers and one more. -/
def spillWhileNegative (env : Env α) (io : Bool) : Nat → Uncompressed α → Outcome (Uncompressed α)
  | 0, s => .ok s
  | fuel + 1, s =>
    if s.remaining < 0 then
      match spill env io s with
      | .ok s => spillWhileNegative env io fuel s
      | o => o
    else .ok s

/-- `adjust_uncompressed_remaining_memory_in_bytes`, uncompressed_data_manager.rs:598-616. -/
def adjustUncompressed (env : Env α) (io : Bool) (s : Uncompressed α) (change : Int) : Outcome (Uncompressed α) :=
  match spillWhileNegative env io (s.inMemory.length + 1) { s with remaining := s.remaining + change } with
  | .failed s => .failed { s with remaining := s.remaining - change }
  | o => o

/-- `compress_finished_buffer`, uncompressed_data_manager.rs:526-596: the compressed segments, the files that are left and the
memory that is returned. `none` is an error. -/
def compressFinishedBuffer (env : Env α) (files : List (SpilledFile α)) :
    Buffer α → Option (Chunk α × List (SpilledFile α) × Nat)
  | .inMemory b =>
    let points := env.sort b.points
    some (⟨b.table, b.tags, points, env.segmentSizes b.table points, b.batchIds⟩, files, computeMemorySize env b.table)
  | .onDisk d =>
    match readFile files d.path with
    | none => none
    | some (f, files) => some (⟨d.table, f.tags, f.points, env.segmentSizes d.table f.points, d.batchIds⟩, files, 0)

/-- `CompressedDataBuffer`, compressed_data_buffer.rs:58-71. -/
structure CompressedBuffer (α : Type) where
  chunks : List (Chunk α)
  size : Nat
  batchIds : List Nat
deriving DecidableEq

/-- The loop in `append_compressed_segment_batch`, compressed_data_buffer.rs:101-107: the size of the segments so
far and the size of the buffer. -/
def appendSizes (sizes : List Nat) (size : Nat) : Nat × Nat :=
  sizes.foldl (fun (total, size) x => (total + x, size + (total + x))) (0, size)

/-- `append_compressed_segment_batch`, compressed_data_buffer.rs:83-112. The schema of the segments always matches. -/
def CompressedBuffer.append (b : CompressedBuffer α) (c : Chunk α) : CompressedBuffer α × Nat :=
  let sizes := appendSizes c.sizes b.size
  (⟨b.chunks ++ [c], sizes.2, b.batchIds ++ c.batchIds⟩, sizes.1)

/-- `CompressedDataManager`, compressed_data_manager.rs:36-56, with the remaining compressed memory, the segments
in the tables in the local data folder and the ids in the commits to them. -/
structure Compressed (α : Type) where
  buffers : List (String × CompressedBuffer α)
  queue : List String
  remaining : Int
  saved : List (Chunk α)
  commits : List (String × Nat)
deriving DecidableEq

/-- `save_compressed_data`, compressed_data_manager.rs:236-291. `none` is a panic. -/
def saveCompressedData (s : Compressed α) (table : String) : Option (Compressed α) :=
  match s.buffers.find? (fun b => b.1 = table) with
  | none => none
  | some (_, b) =>
    some { s with
      buffers := s.buffers.filter (fun b => b.1 ≠ table)
      saved := s.saved ++ b.chunks
      commits := s.commits ++ b.batchIds.map (fun id => (table, id))
      remaining := s.remaining + b.size }

/-- `save_compressed_data_to_free_memory`, compressed_data_manager.rs:191-205. `none` is a panic. -/
def saveToFreeMemory (size : Nat) : List String → Compressed α → Option (Compressed α)
  | [], s => if s.remaining < size then none else some { s with queue := [] }
  | table :: queue, s =>
    if s.remaining < size then
      match saveCompressedData { s with queue := queue } table with
      | none => none
      | some s => saveToFreeMemory size queue s
    else some { s with queue := table :: queue }

/-- The start of `insert_compressed_segments`, compressed_data_manager.rs:141-175: add the segments to the buffer of the table and
return their size. -/
def appendChunk (s : Compressed α) (c : Chunk α) : Compressed α × Nat :=
  match s.buffers.find? (fun b => b.1 = c.table) with
  | some (_, b) =>
    ({ s with buffers := s.buffers.map (fun (x : String × CompressedBuffer α) => if x.1 = c.table then (x.1, (b.append c).1) else x) },
      (b.append c).2)
  | none =>
    let b : CompressedBuffer α := ⟨[], 0, []⟩
    ({ s with buffers := s.buffers ++ [(c.table, (b.append c).1)], queue := s.queue ++ [c.table] }, (b.append c).2)

/-- `insert_compressed_segments`, compressed_data_manager.rs:137-189. The loop is left after at most one
iteration as `save_compressed_data_to_free_memory` returns when there is enough memory. `none` is a panic. -/
def insertCompressedSegments (s : Compressed α) (c : Chunk α) : Option (Compressed α) :=
  let (s, size) := appendChunk s c
  if (size : Int) ≤ s.remaining then some { s with remaining := s.remaining - size }
  else
    match saveToFreeMemory size s.queue s with
    | none => none
    | some s => some { s with remaining := s.remaining - size }

/-- `flush`, compressed_data_manager.rs:220-234. `none` is a panic. -/
def flushCompressed : List String → Compressed α → Option (Compressed α)
  | [], s => some { s with queue := [] }
  | table :: queue, s =>
    match saveCompressedData { s with queue := queue } table with
    | none => none
    | some s => flushCompressed queue s

/-- `adjust_compressed_remaining_memory_in_bytes`, compressed_data_manager.rs:293-305. `none` is a panic. -/
def adjustCompressed (s : Compressed α) (change : Int) : Option (Compressed α) :=
  saveToFreeMemory 0 s.queue { s with remaining := s.remaining + change }

/-- `StorageEngine`, storage/mod.rs:60-75: the managers, the channels, the threads and the remaining ingested
memory. `current` is the batch the ingestion thread works on without the rows it has inserted, `waiting` is whether it waits
for uncompressed memory, `compressing` is the buffer the compression thread works on. A thread ends after an error,
what it worked on is then lost and kept in these fields only to state properties. The last fields are only
used to state properties: all rows received, all batches given to the write-ahead log and the three amounts of memory that
are configured. -/
structure Engine (α : Type) where
  ingestedRemaining : Int
  ingested : List (Message (Ingested α))
  current : Option (Ingested α)
  waiting : Bool
  ingestionAlive : Bool
  u : Uncompressed α
  compressing : Option (Buffer α)
  compressionAlive : Bool
  compressed : List (Message (Chunk α))
  c : Compressed α
  writerAlive : Bool
  results : List Nat
  received : List (Row α)
  batches : List (String × Nat × List (Row α))
  ingestedBudget : Int
  uncompressedBudget : Int
  compressedBudget : Int
deriving DecidableEq

/-- A new storage engine. -/
def Engine.new (ingested uncompressed compressed : Nat) : Engine α :=
  { ingestedRemaining := ingested, ingested := [], current := none, waiting := false, ingestionAlive := true
    u := ⟨0, [], [], [], uncompressed, [], 0⟩, compressing := none, compressionAlive := true, compressed := []
    c := ⟨[], [], compressed, [], []⟩, writerAlive := true, results := [], received := [], batches := []
    ingestedBudget := ingested, uncompressedBudget := uncompressed, compressedBudget := compressed }

/-- What can happen. `io` is whether a spilled buffer, if any, can be written. -/
inductive Op (α : Type) where
  | insert (table : String) (rows : List (Row α)) (batchId : Option Nat) (size : Nat)
  | flush
  | stop
  | touchMemory (i : Nat)
  | touchDisk (i : Nat)
  | ingestionTake
  | ingestionRow (io : Bool)
  | ingestionDone
  | compressionTake
  | compressionDone
  | write
  | adjustIngested (change : Int)
  | adjustUncompressed (io : Bool) (change : Int)
  | adjustCompressed (change : Int)

/-- Move an element to the front. -/
def toFront {τ : Type} (l : List τ) (i : Nat) : List τ :=
  match l[i]? with
  | none => l
  | some x => x :: l.eraseIdx i

/-- One step of the engine; `none` if it cannot be taken. -/
def Engine.step (env : Env α) (e : Engine α) : Op α → Option (Engine α)
  | .insert table rows batchId size =>
    -- insert_data_points and insert_data_points_with_batch_id, storage/mod.rs:244-291, and wait_for_ingested_memory, types.rs:110-128.
    if (size : Int) ≤ e.ingestedRemaining then
      some { e with
        ingestedRemaining := e.ingestedRemaining - size
        ingested := e.ingested ++ [.data ⟨rows, batchId, size⟩]
        received := e.received ++ rows
        batches := e.batches ++ batchId.toList.map (fun id => (table, id, rows)) }
    else none
  | .flush =>
    -- flush, storage/mod.rs:293-301.
    some { e with ingested := e.ingested ++ [.flush e.received.length] }
  | .stop =>
    -- close, storage/mod.rs:314-331.
    some { e with ingested := e.ingested ++ [.stop e.received.length] }
  | .touchMemory i => some { e with u := { e.u with inMemory := toFront e.u.inMemory i } }
  | .touchDisk i => some { e with u := { e.u with onDisk := toFront e.u.onDisk i } }
  | .ingestionTake =>
    -- process_uncompressed_messages, uncompressed_data_manager.rs:100-125.
    if e.ingestionAlive && e.current.isNone then
      match e.ingested with
      | [] => none
      | .data b :: rest => some { e with ingested := rest, current := some b }
      | .flush n :: rest =>
        let u := flushUncompressed e.u
        some { e with ingested := rest, u := { u with channel := u.channel ++ [.flush n] } }
      | .stop n :: rest =>
        let u := flushUncompressed e.u
        some { e with ingested := rest, u := { u with channel := u.channel ++ [.stop n] }, ingestionAlive := false }
    else none
  | .ingestionRow io =>
    -- The loop in insert_data_points, uncompressed_data_manager.rs:149-171.
    if e.ingestionAlive && !e.waiting then
      match e.current with
      | some ⟨r :: rows, batchId, size⟩ =>
        match insertDataPoint env io e.u r batchId with
        | .ok u => some { e with u := u, current := some ⟨rows, batchId, size⟩ }
        | .wait => some { e with waiting := true }
        | .failed u => some { e with u := u, ingestionAlive := false }
        | .panic => none
      | _ => none
    else none
  | .ingestionDone =>
    -- The end of insert_data_points, uncompressed_data_manager.rs:173-180.
    if e.ingestionAlive then
      match e.current with
      | some ⟨[], _, size⟩ =>
        some { e with u := finishBatch e.u, current := none, ingestedRemaining := e.ingestedRemaining + size }
      | _ => none
    else none
  | .compressionTake =>
    -- process_compressor_messages, uncompressed_data_manager.rs:503-524.
    if e.compressionAlive && e.compressing.isNone then
      match e.u.channel with
      | [] => none
      | .data b :: rest => some { e with u := { e.u with channel := rest }, compressing := some b }
      | .flush n :: rest => some { e with u := { e.u with channel := rest }, compressed := e.compressed ++ [.flush n] }
      | .stop n :: rest =>
        some { e with u := { e.u with channel := rest }, compressed := e.compressed ++ [.stop n], compressionAlive := false }
    else none
  | .compressionDone =>
    -- compress_finished_buffer; returning memory notifies the ingestion thread, types.rs:131-138.
    if e.compressionAlive then
      match e.compressing with
      | none => none
      | some b =>
        match compressFinishedBuffer env e.u.files b with
        | none => some { e with compressionAlive := false }
        | some (chunk, files, memory) =>
          some { e with
            compressing := none
            u := { e.u with files := files, remaining := e.u.remaining + memory }
            compressed := e.compressed ++ [.data chunk]
            waiting := false }
    else none
  | .write =>
    -- process_compressed_messages, compressed_data_manager.rs:110-135.
    if e.writerAlive then
      match e.compressed with
      | [] => none
      | .data chunk :: rest => (insertCompressedSegments e.c chunk).map fun c => { e with compressed := rest, c := c }
      | .flush n :: rest =>
        (flushCompressed e.c.queue e.c).map fun c => { e with compressed := rest, c := c, results := e.results ++ [n] }
      | .stop n :: rest =>
        (flushCompressed e.c.queue e.c).map fun c =>
          { e with compressed := rest, c := c, results := e.results ++ [n], writerAlive := false }
    else none
  | .adjustIngested change =>
    -- adjust_multivariate_remaining_memory_in_bytes, storage/mod.rs:333-336.
    some { e with ingestedRemaining := e.ingestedRemaining + change, ingestedBudget := e.ingestedBudget + change }
  | .adjustUncompressed io change =>
    match adjustUncompressed env io e.u change with
    | .ok u => some { e with u := u, uncompressedBudget := e.uncompressedBudget + change, waiting := false }
    | .failed u => some { e with u := u, waiting := false }
    | _ => none
  | .adjustCompressed change =>
    (adjustCompressed e.c change).map fun c => { e with c := c, compressedBudget := e.compressedBudget + change }

/-- A sequence of steps. -/
def Engine.run (env : Env α) (e : Engine α) : List (Op α) → Option (Engine α)
  | [] => some e
  | op :: ops => (e.step env op).bind fun e => e.run env ops

end ModelarDB.Model.Storage
