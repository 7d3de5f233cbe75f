import Mathlib.Data.List.Basic
/-
Flushing and stopping a node.

Source: crates/modelardb_server/src/remote.rs (do_action), main.rs (setup_ctrl_c_handler), storage/mod.rs (flush, transfer, close) and
storage/data_transfer.rs.

The storage engine is modelled by where the rows are: in memory, in the local data folder, in the remote data folder and in the write-ahead log. That a flush
saves everything in memory if nothing fails is C23, and what the write-ahead log recovers is C15 to C20; batches that are saved are not removed from the log
here. Rows are moved in one step to the remote data folder; failures in the middle of that are in C26. A release build ends at a panic.
-/
namespace ModelarDB.Model.Shutdown

/-- How the server was started (`DataFolders::try_from_args`, data_folders.rs:57-122): only nodes in a cluster have a remote data folder. -/
inductive Mode where
  | single
  | edge
  | cloud
deriving DecidableEq, Repr

/-- Whether there is a remote data folder and the node is in a cluster. -/
def Mode.remote : Mode → Bool
  | .single => false
  | _ => true

/-- How far `KillNode` is, which holds the lock for the storage engine. -/
inductive Kill where
  | flushed
  | transferred
  | removed
deriving DecidableEq, Repr

/-- How far the handler for CTRL+C is. It does not hold the lock for the storage engine after `close()`. -/
inductive CtrlC where
  | closed
  | removed
deriving DecidableEq, Repr

/-- How the process ended: `exit(0)` for a request or a panic. -/
inductive End where
  | killed
  | interrupted
  | panic
deriving DecidableEq, Repr

/-- The actions that are answered. -/
inductive Action where
  | flushMemory
  | flushNode
  | killNode
deriving DecidableEq, Repr

/-- A node. `confirmed` are the rows clients were told are ingested and `replies` the answers to actions. -/
structure Node (ρ : Type) where
  mode : Mode
  wal : Bool
  memory : List ρ
  disk : List ρ
  remote : List ρ
  log : List ρ
  member : Bool
  kill : Option Kill
  ctrlC : Option CtrlC
  ended : Option End
  confirmed : List ρ
  replies : List (Action × Bool)
deriving DecidableEq

/-- A node that was started without data. -/
def Node.new {ρ : Type} (mode : Mode) (wal : Bool) : Node ρ := ⟨mode, wal, [], [], [], [], mode.remote, none, none, none, [], []⟩

/-- What can happen. `failing` are the rows that cannot be saved and `moved` those that are transferred before an error. -/
inductive Op (ρ : Type) where
  | ingest (rows : List ρ)
  | ingestNormal (rows : List ρ)
  | save (failing : ρ → Bool)
  | flushMemory (failing : ρ → Bool)
  | flushNode (failing moved : ρ → Bool) (ok : Bool)
  | killFlush (failing : ρ → Bool)
  | killTransfer (moved : ρ → Bool) (ok : Bool)
  | killRemove (ok : Bool)
  | killExit
  | interrupt (failing : ρ → Bool)
  | interruptRemove (ok : Bool)
  | interruptExit
  | periodic (moved : ρ → Bool) (ok : Bool)
  | reached (moved : ρ → Bool)

variable {ρ : Type}

/-- `StorageEngine::flush` (storage/mod.rs:296-301): rows that cannot be saved stay in memory, the errors are only logged
(compressed_data_manager.rs:209-218). -/
def Node.flush (n : Node ρ) (failing : ρ → Bool) : Node ρ :=
  { n with disk := n.disk ++ n.memory.filter (fun r => !failing r), memory := n.memory.filter failing }

/-- `StorageEngine::transfer` (storage/mod.rs:304-312) with `transfer_larger_than_threshold` (data_transfer.rs:206-218): an error without a remote data
folder, else all rows or some until an error. -/
def Node.transfer (n : Node ρ) (moved : ρ → Bool) (ok : Bool) : Node ρ × Bool :=
  if n.mode.remote then
    if ok then ({ n with remote := n.remote ++ n.disk, disk := [] }, true)
    else ({ n with remote := n.remote ++ n.disk.filter moved, disk := n.disk.filter (fun r => !moved r) }, false)
  else (n, false)

/-- Whether requests that need the storage engine can run. -/
def Node.unlocked (n : Node ρ) : Bool := n.kill.isNone && n.ended.isNone

/-- Whether the threads of the storage engine run; without them `flush()` waits forever. -/
def Node.threads (n : Node ρ) : Bool := n.ctrlC.isNone

/-- A step. -/
def Node.step (n : Node ρ) : Op ρ → Option (Node ρ)
  /- `insert_data_points` and `insert_data_points_with_batch_id` (storage/mod.rs:246-291): the rows are logged and sent to a channel, which also works if no thread reads it anymore. -/
  | .ingest rows =>
    if n.unlocked then
      some { n with memory := n.memory ++ rows, log := if n.wal then n.log ++ rows else n.log, confirmed := n.confirmed ++ rows }
    else none
  /- `insert_record_batch` (compressed_data_manager.rs:77-106) -/
  | .ingestNormal rows => if n.unlocked then some { n with disk := n.disk ++ rows, confirmed := n.confirmed ++ rows } else none
  /- The threads save some rows. -/
  | .save failing => if n.ended.isNone && n.threads then some (n.flush failing) else none
  /- remote.rs:852-862 -/
  | .flushMemory failing =>
    if n.unlocked && n.threads then some { n.flush failing with replies := n.replies ++ [(.flushMemory, true)] } else none
  /- remote.rs:863-875 -/
  | .flushNode failing moved ok =>
    if n.unlocked && n.threads then
      let (n', ok') := (n.flush failing).transfer moved ok
      some { n' with replies := n.replies ++ [(.flushNode, ok')] }
    else none
  /- remote.rs:876-881; the lock is held from now on. -/
  | .killFlush failing => if n.unlocked && n.threads then some { n.flush failing with kill := some .flushed } else none
  /- remote.rs:882-885; an error is returned and the lock released. -/
  | .killTransfer moved ok =>
    if n.ended.isNone && n.kill == some .flushed then
      let (n', ok') := n.transfer moved ok
      some (if ok' then { n' with kill := some .transferred } else { n' with kill := none, replies := n.replies ++ [(.killNode, false)] })
    else none
  /- remote.rs:887-894 -/
  | .killRemove ok =>
    if n.ended.isNone && n.kill == some .transferred then
      some (if ok then { n with member := false, kill := some .removed } else { n with kill := none, replies := n.replies ++ [(.killNode, false)] })
    else none
  /- remote.rs:896-898 -/
  | .killExit => if n.ended.isNone && n.kill == some .removed then some { n with ended := some .killed } else none
  /- main.rs:175-178: `close()` (storage/mod.rs:318-332) flushes and stops the threads; the lock is released at the end of the statement. -/
  | .interrupt failing => if n.unlocked && n.threads then some { n.flush failing with ctrlC := some .closed } else none
  /- main.rs:181-184, where an error is a panic. -/
  | .interruptRemove ok =>
    if n.ended.isNone && n.ctrlC == some .closed then
      some (if !n.mode.remote then { n with ctrlC := some .removed }
        else if ok then { n with member := false, ctrlC := some .removed } else { n with ended := some .panic })
    else none
  /- main.rs:186 -/
  | .interruptExit => if n.ended.isNone && n.ctrlC == some .removed then some { n with ended := some .interrupted } else none
  /- The task of `set_transfer_time_in_seconds` (data_transfer.rs:167-198), where an error is a panic. -/
  | .periodic moved ok =>
    if n.ended.isNone && n.mode.remote then
      let (n', ok') := n.transfer moved ok
      some (if ok' then n' else { n' with ended := some .panic })
    else none
  /- `increase_table_size` (data_transfer.rs:105-126) transfers tables that reached the batch size; an error is logged or returned. -/
  | .reached moved => if n.ended.isNone && n.mode.remote then some (n.transfer moved false).1 else none

/-- All steps of an execution. -/
def Node.run (n : Node ρ) : List (Op ρ) → Option (Node ρ)
  | [] => some n
  | op :: ops => (n.step op).bind fun n' => n'.run ops

end ModelarDB.Model.Shutdown
