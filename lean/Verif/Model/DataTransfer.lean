/-
Transfer of a table to the remote object store.

Source: crates/modelardb_server/src/storage/data_transfer.rs and the functions that call it in compressed_data_manager.rs and
storage/mod.rs.

Simplifications:
* One table is modelled. The component handles each table separately, data_transfer.rs:200-261, so the tables do not interact.
* A file is what one commit to the table adds. Its rows are not looked into.
* `mark_table_as_dropped`, `clear_table` and `set_transfer_batch_size_in_bytes` take the component mutably, so they cannot run while
  `transfer_data` runs, storage/mod.rs:361-423. Transfers started by saving segments, by inserting into a normal table and
  by a client share the component and can run at the same time, compressed_data_manager.rs:98-105 and 273-280, storage/mod.rs:303-312.
* When a table is dropped or truncated nothing happens to it between the deletion of the size and the deletion of the data.
* Commits are not protected by the lock of the component, compressed_data_manager.rs:94-96 and 260-262.
-/
namespace ModelarDB.Model.DataTransfer

/-- `u64` arithmetic, which wraps around in release builds. -/
def u64 (n : Int) : Nat := (n % 2 ^ 64).toNat

variable {ρ : Type}

/-- How far `transfer_data` is: the size is read, the rows are read, the rows are written to the remote table, the local rows are
deleted. -/
inductive Stage (ρ : Type) where
  | started
  | scanned (files : List ρ)
  | written (files : List ρ)
  | truncated
deriving DecidableEq

/-- A call of `transfer_data` with `current_size_in_bytes`. -/
structure Transfer (ρ : Type) where
  captured : Nat
  stage : Stage ρ
deriving DecidableEq

/-- A table in the local and in the remote data folder and the state of `DataTransfer`, data_transfer.rs:38-54. The files in the local
table carry the size that is reported for them. `unreported` are files that are committed and whose size is not reported
yet. `committed` and `discarded` are only used to state properties: all files that were committed, and those deleted because the table is dropped or
truncated. -/
structure Table (ρ : Type) where
  localFiles : List (ρ × Nat)
  remoteFiles : List ρ
  size : Option Nat
  batchSize : Option Nat
  dropped : Bool
  unreported : List (ρ × Nat)
  running : List (Transfer ρ)
  committed : List ρ
  discarded : List ρ
deriving DecidableEq

/-- A new table. -/
def Table.new (batchSize : Option Nat) : Table ρ := ⟨[], [], none, batchSize, false, [], [], [], []⟩

/-- The start of `transfer_data`, data_transfer.rs:226-241. `none` is a panic. -/
def Table.begin (t : Table ρ) : Option (Table ρ) :=
  if t.dropped then some t
  else
    match t.size with
    | none => none
    | some size => some { t with running := t.running ++ [⟨size, .started⟩] }

/-- What can happen. `ok` is whether the step succeeds. -/
inductive Op (ρ : Type) where
  /-- A commit to the local table, `write_record_batches`. -/
  | commit (file : ρ) (size : Nat)
  /-- `increase_table_size` for the file at an index of those not reported. -/
  | report (i : Nat)
  /-- `transfer_larger_than_threshold`. -/
  | request (threshold : Nat)
  /-- The next step of a running transfer. -/
  | advance (i : Nat) (ok : Bool)
  /-- `mark_table_as_dropped`. -/
  | mark
  /-- `clear_table` and the deletion of the local data, context.rs:303-376. -/
  | discard
  | setBatchSize (value : Option Nat)
  /-- The server is stopped at any moment and started again; `disk` are the sizes of the files on disk. -/
  | restart (disk : ρ → Nat)

/-- One step; `none` if it cannot be taken or is a panic. -/
def Table.step (t : Table ρ) : Op ρ → Option (Table ρ)
  | .commit file size =>
    some { t with
      localFiles := t.localFiles ++ [(file, size)], unreported := t.unreported ++ [(file, size)], committed := t.committed ++ [file] }
  | .report i =>
    -- increase_table_size, data_transfer.rs:104-126.
    match t.unreported[i]? with
    | none => none
    | some f =>
      let size := u64 (t.size.getD 0 + f.2)
      let t := { t with unreported := t.unreported.eraseIdx i, size := some size }
      match t.batchSize with
      | some batchSize => if batchSize ≤ size then t.begin else some t
      | none => some t
  | .request threshold =>
    -- transfer_larger_than_threshold, data_transfer.rs:205-218.
    match t.size with
    | none => some t
    | some size => if threshold < size then t.begin else some t
  | .advance i ok =>
    match t.running[i]? with
    | none => none
    | some transfer =>
      match transfer.stage with
      -- Read the table, data_transfer.rs:243-247.
      | .started =>
        if ok then some { t with running := t.running.set i ⟨transfer.captured, .scanned (t.localFiles.map Prod.fst)⟩ }
        else some { t with running := t.running.eraseIdx i }
      -- Write to the remote table, data_transfer.rs:251-254.
      | .scanned files =>
        if ok then some { t with remoteFiles := t.remoteFiles ++ files, running := t.running.set i ⟨transfer.captured, .written files⟩ }
        else some { t with running := t.running.eraseIdx i }
      -- Delete from the local table, data_transfer.rs:256-257.
      | .written _ =>
        if ok then some { t with localFiles := [], running := t.running.set i ⟨transfer.captured, .truncated⟩ }
        else some { t with running := t.running.eraseIdx i }
      -- Update the size, data_transfer.rs:259-260.
      | .truncated =>
        match t.size with
        | none => none
        | some size => some { t with size := some (u64 (size - transfer.captured)), running := t.running.eraseIdx i }
  | .mark => if t.running.isEmpty then some { t with dropped := true } else none
  | .discard =>
    -- clear_table, data_transfer.rs:134-144, and drop_table or truncate_table of the local data folder.
    if t.running.isEmpty then
      some { t with dropped := false, size := none, localFiles := [], discarded := t.discarded ++ t.localFiles.map Prod.fst }
    else none
  | .setBatchSize value =>
    -- set_transfer_batch_size_in_bytes, data_transfer.rs:146-161, after the transfer it starts if the size is above the new value.
    match value with
    | none => if t.running.isEmpty then some { t with batchSize := none } else none
    | some new =>
      if t.running.isEmpty && (t.dropped || decide (t.size.getD 0 ≤ new)) then some { t with batchSize := some new } else none
  | .restart disk =>
    -- try_new, data_transfer.rs:61-102.
    let files := t.localFiles.map fun f => (f.1, disk f.1)
    let size := u64 (files.map Prod.snd).sum
    let t := { t with localFiles := files, size := some size, dropped := false, unreported := [], running := [] }
    match t.batchSize with
    | some batchSize => if batchSize ≤ size then t.begin else some t
    | none => some t

/-- A sequence of steps. -/
def Table.run (t : Table ρ) : List (Op ρ) → Option (Table ρ)
  | [] => some t
  | op :: ops => (t.step op).bind fun t => t.run ops

end ModelarDB.Model.DataTransfer
