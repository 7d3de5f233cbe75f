/-
Writing to a Delta table.

Source: crates/modelardb_storage/src/data_folder/delta_table_writer.rs.

Simplifications:
* The crate deltalake is not part of the repository. A table is a set of objects and a log; a commit appends to the log atomically and the
  rows of a table are those of the objects its log adds.
* A function is modelled by its result and by the changes it makes to the object store in order. A crash is an end after any of them.
* `DeltaWriter` may write an object before it is closed. All objects are written when it is closed; if this fails, any of
  them may have been written.
-/
namespace ModelarDB.Model.DeltaWriter

variable {β ρ : Type}

/-- The objects of a table and its log: for each commit the paths that are added and the ids of the batches. -/
structure Table (ρ : Type) where
  objects : List (String × List ρ)
  log : List (List String × List Nat)
deriving DecidableEq

/-- A change to the object store. -/
inductive Effect (ρ : Type) where
  | put (path : String) (rows : List ρ)
  | delete (path : String)
  | commit (paths : List String) (ids : List Nat)

/-- Apply a change. -/
def Table.apply (t : Table ρ) : Effect ρ → Table ρ
  | .put path rows => { t with objects := (path, rows) :: t.objects }
  | .delete path => { t with objects := t.objects.filter fun o => o.1 ≠ path }
  | .commit paths ids => { t with log := t.log ++ [(paths, ids)] }

/-- How the commit of the crate ends: an error can be returned although the commit is in the log, e.g. if the answer is lost. -/
inductive CommitResult where
  | ok
  | failed
  | failedAfterCommit
deriving DecidableEq

/-- What fails: the write of a record batch, the close of the writer after some objects are written, reading the snapshot, the commit,
the deletion of one of the objects, and loading the table. -/
structure Faults where
  write : Option Nat
  close : Option Nat
  snapshot : Bool
  commit : CommitResult
  delete : Option Nat
  load : Bool

/-- How `DeltaWriter` distributes the rows of record batches to objects with new names. -/
structure Layout (β ρ : Type) where
  files : List β → List (String × List ρ)

/-- `close`: the changes and whether it succeeds. -/
def close (faults : Faults) (files : List (String × List ρ)) : List (Effect ρ) × Bool :=
  match faults.close with
  | none => (files.map fun f => .put f.1 f.2, true)
  | some n => ((files.take n).map fun f => .put f.1 f.2, false)

/-- `delete_added_files`, delta_table_writer.rs:249-255. It does not continue after an error. -/
def deleteAddedFiles (faults : Faults) (files : List (String × List ρ)) : List (Effect ρ) :=
  match faults.delete with
  | none => files.map fun f => .delete f.1
  | some n => (files.take n).map fun f => .delete f.1

/-- `rollback`, delta_table_writer.rs:238-243. -/
def rollback (faults : Faults) (files : List (String × List ρ)) : List (Effect ρ) :=
  let (effects, ok) := close faults files
  if ok then effects ++ deleteAddedFiles faults files else effects

/-- `commit`, delta_table_writer.rs:185-232: the changes and whether it succeeds. -/
def commit (faults : Faults) (files : List (String × List ρ)) (ids : List Nat) : List (Effect ρ) × Bool :=
  let (effects, ok) := close faults files
  if !ok then (effects, false)
  else if faults.snapshot then (effects ++ deleteAddedFiles faults files, false)
  else
    match faults.commit with
    | .ok => (effects ++ [.commit (files.map Prod.fst) ids], !faults.load)
    | .failed => (effects ++ deleteAddedFiles faults files, false)
    | .failedAfterCommit => (effects ++ [.commit (files.map Prod.fst) ids] ++ deleteAddedFiles faults files, false)

/-- `write_all_and_commit`, delta_table_writer.rs:167-178, with `write_all`, delta_table_writer.rs:157-162, for a table writer with the
batch ids, data_folder/mod.rs:718-733. -/
def writeAllAndCommit (layout : Layout β ρ) (faults : Faults) (batches : List β) (ids : List Nat) : List (Effect ρ) × Bool :=
  match faults.write with
  | some i => if i < batches.length then (rollback faults (layout.files (batches.take i)), false)
    else commit faults (layout.files batches) ids
  | none => commit faults (layout.files batches) ids

end ModelarDB.Model.DeltaWriter
