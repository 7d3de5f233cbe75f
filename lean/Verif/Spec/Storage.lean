import Verif.Model.Storage
/-
Where the rows given to the storage engine are, for C20 to C24.
-/
namespace ModelarDB.Spec.Storage
open Model.Storage

variable {α : Type}

/-- The series a row belongs to and its timestamp. -/
def key (r : Row α) : String × List String × Int := (r.table, r.tags, r.ts)

/-- The rows of points of a series. -/
def rowsOf (table : String) (tags : List String) (points : List (Int × α)) : List (Row α) :=
  points.map fun p => ⟨table, tags, p.1, p.2⟩

/-- The rows in a buffer in memory. -/
def memoryRows (b : MemoryBuffer α) : List (Row α) := rowsOf b.table b.tags b.points

/-- The rows in the file of a buffer on disk. -/
def diskRows (files : List (SpilledFile α)) (d : DiskBuffer α) : List (Row α) :=
  match files.find? (fun f => f.path = d.path) with
  | none => []
  | some f => rowsOf d.table f.tags f.points

/-- The rows in a buffer. -/
def bufferRows (files : List (SpilledFile α)) : Buffer α → List (Row α)
  | .inMemory b => memoryRows b
  | .onDisk d => diskRows files d

/-- The rows represented by compressed segments. -/
def chunkRows (c : Chunk α) : List (Row α) := rowsOf c.table c.tags c.points

/-- The rows in a message. -/
def messageRows {τ : Type} (f : τ → List (Row α)) : Message τ → List (Row α)
  | .data x => f x
  | .flush _ => []
  | .stop _ => []

/-- Rows the ingestion thread has not inserted yet. -/
def queuedRows (e : Engine α) : List (Row α) :=
  e.current.toList.flatMap Ingested.rows ++ e.ingested.flatMap (messageRows Ingested.rows)

/-- Rows in open buffers. -/
def openRows (e : Engine α) : List (Row α) :=
  e.u.inMemory.flatMap memoryRows ++ e.u.onDisk.flatMap (diskRows e.u.files)

/-- Rows in finished buffers. -/
def finishedRows (e : Engine α) : List (Row α) :=
  e.compressing.toList.flatMap (bufferRows e.u.files) ++ e.u.channel.flatMap (messageRows (bufferRows e.u.files))

/-- Rows that are compressed and not saved. -/
def compressedRows (e : Engine α) : List (Row α) :=
  e.c.buffers.flatMap (fun b => b.2.chunks.flatMap chunkRows) ++ e.compressed.flatMap (messageRows chunkRows)

/-- Rows that are saved in the local data folder. -/
def savedRows (e : Engine α) : List (Row α) := e.c.saved.flatMap chunkRows

/-- All rows in the engine and in the local data folder. -/
def allRows (e : Engine α) : List (Row α) :=
  savedRows e ++ compressedRows e ++ finishedRows e ++ openRows e ++ queuedRows e

/-- The series of a buffer. -/
def bufferSeries : Buffer α → String × List String
  | .inMemory b => (b.table, b.tags)
  | .onDisk d => (d.table, d.ghost.tags)

/-- The open buffers. -/
def openBuffers (e : Engine α) : List (Buffer α) := e.u.inMemory.map .inMemory ++ e.u.onDisk.map .onDisk

/-- What is sent by a message. -/
def messageData {τ : Type} : Message τ → List τ
  | .data x => [x]
  | .flush _ => []
  | .stop _ => []

/-- The batches of segments that were handed over by the compression thread. -/
def handedOver (e : Engine α) : List (Chunk α) :=
  e.c.saved ++ e.c.buffers.flatMap (fun b => b.2.chunks) ++ e.compressed.flatMap messageData

/-- The finished buffers that are not compressed. -/
def finishedBuffers (e : Engine α) : List (Buffer α) :=
  e.compressing.toList ++ e.u.channel.flatMap messageData

/-- The memory of a buffer for a table: 8 bytes for each timestamp and 4 bytes for each value. -/
def tableMemory (env : Env α) (table : String) : Nat := env.capacity * (8 + 4 * env.numFields table)

/-- The memory held by a buffer. -/
def bufferMemory (env : Env α) : Buffer α → Nat
  | .inMemory b => tableMemory env b.table
  | .onDisk _ => 0

/-- The memory held by uncompressed data. -/
def uncompressedMemory (env : Env α) (e : Engine α) : Nat := ((openBuffers e ++ finishedBuffers e).map (bufferMemory env)).sum

/-- The memory held by batches of rows that are not completely inserted. -/
def ingestedMemory (e : Engine α) : Nat :=
  ((e.current.toList ++ e.ingested.flatMap messageData).map Ingested.size).sum

/-- The memory held by compressed segments in buffers. -/
def compressedMemory (e : Engine α) : Nat := ((e.c.buffers.flatMap fun b => b.2.chunks).map fun c => c.sizes.sum).sum

/-- The batches that are replayed if the server is stopped without warning and started again: those in the write-ahead log whose ids
are not in a commit to their table, context.rs:262-300 and C18. -/
def replayedBatches (e : Engine α) : List (String × Nat × List (Row α)) :=
  e.batches.filter fun b => (b.1, b.2.1) ∉ e.c.commits

/-- The rows that are replayed. -/
def replayedRows (e : Engine α) : List (Row α) := (replayedBatches e).flatMap fun b => b.2.2

/-- Operations that neither start nor end a batch. -/
def Op.inside : Op α → Prop
  | .ingestionTake => False
  | .ingestionDone => False
  | _ => True

/-- Flush and stop requests. -/
def Op.isRequest : Op α → Bool
  | .flush => true
  | .stop => true
  | _ => false

/-- No two of the series have the same hash and no series has two rows with the same timestamp. -/
structure Good (env : Env α) (received : List (Row α)) : Prop where
  hash : ∀ r ∈ received, ∀ r' ∈ received, calculateTagHash env r.table r.tags = calculateTagHash env r'.table r'.tags →
    r.table = r'.table ∧ r.tags = r'.tags
  keys : (received.map key).Nodup

/-- Sorting by timestamp. -/
def Sorts (env : Env α) : Prop :=
  ∀ l, (env.sort l).Perm l ∧ (env.sort l).Pairwise fun a b => a.1 ≤ b.1

/-- Files with spilled buffers can be written. -/
def Op.ioOk : Op α → Prop
  | .ingestionRow io => io = true
  | .adjustUncompressed io _ => io = true
  | _ => True

/-- The rows of a batch belong to the table it is inserted into. -/
def Op.tableOk : Op α → Prop
  | .insert table rows _ _ => ∀ r ∈ rows, r.table = table
  | _ => True

end ModelarDB.Spec.Storage
