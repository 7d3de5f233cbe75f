import Verif.Model.Storage
/-
The compressed data manager when saving fails.

Source: crates/modelardb_server/src/storage/compressed_data_manager.rs. `Model.Storage` models the functions if every save succeeds,
`Lemmas.Saving` shows that the functions here are then the same.
-/
namespace ModelarDB.Model.Saving
open Model.Storage

variable {α : Type}

/-- How a save ends: with success, because the segments cannot be written, or because the write-ahead log cannot be updated or
the data cannot be transferred after the segments are written, compressed_data_manager.rs:256-278. -/
inductive SaveResult where
  | ok
  | writeFails
  | laterFails
deriving DecidableEq

/-- How a function ends. -/
inductive End (τ : Type) where
  | ok (state : τ)
  | error (state : τ)
  | panic
deriving DecidableEq

/-- The compressed data manager and the segments that were removed from memory and not written. The results of the next saves are a
list; a save succeeds if there is none. -/
structure Manager (α : Type) where
  c : Compressed α
  next : List SaveResult
  lost : List (Chunk α)
deriving DecidableEq

/-- `save_compressed_data`, compressed_data_manager.rs:240-291. -/
def save (m : Manager α) (table : String) : End (Manager α) :=
  match m.c.buffers.find? (fun b => b.1 = table) with
  | none => .panic
  | some (_, b) =>
    -- The buffer is removed before it is saved.
    let c := { m.c with buffers := m.c.buffers.filter (fun b => b.1 ≠ table) }
    match m.next.headD .ok with
    | .writeFails => .error { c := c, next := m.next.tail, lost := m.lost ++ b.chunks }
    | .laterFails =>
      .error { m with
        c := { c with saved := c.saved ++ b.chunks, commits := c.commits ++ b.batchIds.map (fun id => (table, id)) }
        next := m.next.tail }
    | .ok =>
      .ok { m with
        c := { c with
          saved := c.saved ++ b.chunks, commits := c.commits ++ b.batchIds.map (fun id => (table, id)), remaining := c.remaining + b.size }
        next := m.next.tail }

/-- `save_compressed_data_to_free_memory`, compressed_data_manager.rs:194-205. -/
def freeMemory (size : Nat) : List String → Manager α → End (Manager α)
  | [], m => if m.c.remaining < size then .panic else .ok { m with c := { m.c with queue := [] } }
  | table :: queue, m =>
    if m.c.remaining < size then
      match save { m with c := { m.c with queue := queue } } table with
      | .ok m => freeMemory size queue m
      | e => e
    else .ok { m with c := { m.c with queue := table :: queue } }

/-- `insert_compressed_segments`, compressed_data_manager.rs:141-189. -/
def insertSegments (m : Manager α) (x : Chunk α) : End (Manager α) :=
  let (c, size) := appendChunk m.c x
  if (size : Int) ≤ c.remaining then .ok { m with c := { c with remaining := c.remaining - size } }
  else
    match freeMemory size c.queue { m with c := c } with
    | .ok m => .ok { m with c := { m.c with remaining := m.c.remaining - size } }
    | e => e

/-- `flush`, compressed_data_manager.rs:222-234. It does not continue after an error. -/
def flush : List String → Manager α → End (Manager α)
  | [], m => .ok { m with c := { m.c with queue := [] } }
  | table :: queue, m =>
    match save { m with c := { m.c with queue := queue } } table with
    | .ok m => flush queue m
    | e => e

/-- The writer thread: the manager, whether the thread runs, and the answers to requests to flush, true for success. The last field is
only used to state properties: the segments that were received. -/
structure Writer (α : Type) where
  m : Manager α
  alive : Bool
  answers : List Bool
  received : List (Chunk α)
deriving DecidableEq

/-- A new writer. -/
def Writer.new (memory : Nat) (next : List SaveResult) : Writer α := ⟨⟨⟨[], [], memory, [], []⟩, next, []⟩, true, [], []⟩

/-- What can happen. -/
inductive Op (α : Type) where
  | data (x : Chunk α)
  | flush
  | adjust (change : Int)

/-- An iteration of `process_compressed_messages`, compressed_data_manager.rs:113-134, or a call of
`adjust_compressed_remaining_memory_in_bytes`, compressed_data_manager.rs:297-306. `none` if the thread has ended or panics. -/
def Writer.step (w : Writer α) : Op α → Option (Writer α)
  | .data x =>
    if !w.alive then none
    else
      match insertSegments w.m x with
      | .ok m => some { w with m := m, received := w.received ++ [x] }
      -- The error ends the loop and so the thread, compressed_data_manager.rs:119-122.
      | .error m => some { w with m := m, alive := false, received := w.received ++ [x] }
      | .panic => none
  | .flush =>
    if !w.alive then none
    else
      match flush w.m.c.queue w.m with
      | .ok m => some { w with m := m, answers := w.answers ++ [true] }
      -- flush_and_log_errors drops the error, compressed_data_manager.rs:209-218, and success is sent, compressed_data_manager.rs:123-126.
      | .error m => some { w with m := m, answers := w.answers ++ [true] }
      | .panic => none
  | .adjust change =>
    match freeMemory 0 w.m.c.queue { w.m with c := { w.m.c with remaining := w.m.c.remaining + change } } with
    | .ok m => some { w with m := m }
    | .error m => some { w with m := m }
    | .panic => none

/-- A sequence of steps. -/
def Writer.run (w : Writer α) : List (Op α) → Option (Writer α)
  | [] => some w
  | op :: ops => (w.step op).bind fun w => w.run ops

end ModelarDB.Model.Saving
