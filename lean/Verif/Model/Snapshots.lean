/-
Queries that read the files of a table while rows are saved, transferred, deleted and vacuumed and while the table is dropped.

Source: `scan` in crates/modelardb_storage/src/query/time_series_table.rs and normal_table.rs, `truncate_table`, `vacuum_table`, `drop_table` and the writers in
crates/modelardb_storage/src/data_folder.

Simplifications:
* One table is modelled. A file is a number, and its rows do not change. The names of files are UUIDs, so that a number is used once.
* The log of the table is the list of files in its latest version with the files that were removed from it, and each commit is one step. Commits that
  conflict with each other fail, and a commit that fails is not a step.
* `vacuum` of the crate deltalake 0.32 in its default mode: the files to delete are those that were removed from the table longer ago than the retention period according to
  the clock of the machine, and files that are not in the log are kept. Checkpoints of the log only contain files that were removed in the last week, which is the default of
  `delta.deletedFileRetentionDuration`.
* A file is read in one step, and reading a file that has been deleted is an error. A query reads the files of each table it mentions one after another.
-/
namespace ModelarDB.Model.Snapshots

variable {ρ : Type}

/-- A query. -/
inductive Query (ρ : Type) where
  /-- Not sent yet. -/
  | idle
  /-- The table must be scanned `todo` more times, and the files of the other scans are known. -/
  | planning (todo : Nat) (plans : List (List Nat))
  /-- The results of some scans are complete, that of the current scan has the rows `current` of the files before `files`, and `rest` are the scans to read. -/
  | reading (complete : List (List ρ)) (current : List ρ) (files : List Nat) (rest : List (List Nat))
  /-- The result of each scan. -/
  | done (results : List (List ρ))
  /-- The client receives an error. -/
  | failed
deriving Repr, DecidableEq

/-- The folder of a table, and the queries. -/
structure State (ρ : Type) where
  /-- The time in milliseconds. -/
  now : Nat
  /-- Files that exist. -/
  store : List Nat
  /-- The files of the latest version of the table. -/
  active : List Nat
  /-- Files in the log that were removed from the table, and when, according to the clock of the machine that removed them. -/
  tombs : List (Nat × Int)
  /-- Files of writers that have not committed them. -/
  pending : List Nat
  /-- Files that VACUUM has yet to delete. -/
  doomed : List Nat
  /-- Files with larger numbers have never existed. -/
  next : Nat
  /-- The table is dropped. -/
  dropped : Bool
  query : Nat → Query ρ

/-- One week in milliseconds. -/
def week : Int := 604800000

/-- A step. Machines have clocks of their own. -/
inductive Step where
  /-- Time passes. -/
  | tick (milliseconds : Nat)
  /-- A writer writes a file. -/
  | write
  /-- A writer commits its files. -/
  | commit (files : List Nat)
  /-- A writer deletes a file it has not committed. -/
  | rollback (file : Nat)
  /-- A writer ends without having committed a file. -/
  | abandon (file : Nat)
  /-- Files are removed from the table, by TRUNCATE or by a transfer. -/
  | remove (clock : Int) (files : List Nat)
  /-- A checkpoint is added to the log. -/
  | checkpoint (clock : Int)
  /-- VACUUM decides which files to delete. The retention period is in milliseconds. -/
  | vacuum (clock : Int) (retention : Nat)
  /-- VACUUM deletes a file. -/
  | delete (file : Nat)
  /-- The table is dropped. -/
  | drop
  /-- A file of a table that is dropped is deleted. -/
  | deleteDropped (file : Nat)
  /-- A client sends the query `q`, which mentions the table `scans` times. -/
  | ask (q : Nat) (scans : Nat)
  /-- The table is scanned for the query. -/
  | scan (q : Nat)
  /-- The query begins to read files. -/
  | execute (q : Nat)
  /-- The query reads its next file. -/
  | read (q : Nat)
deriving Repr, DecidableEq

def State.setQuery (st : State ρ) (q : Nat) (x : Query ρ) : State ρ := { st with query := fun p => if p = q then x else st.query p }

/-- The rows of a table are those of the files of its latest version. -/
def State.rows (content : Nat → List ρ) (st : State ρ) : List ρ := st.active.flatMap content

/-- Files VACUUM deletes: `vacuum_table`, crates/modelardb_storage/src/data_folder/mod.rs:659-683. The file exists, was removed from the table before the retention period
and is not in the table. -/
def State.stale (st : State ρ) (clock : Int) (retention : Nat) : List Nat :=
  st.store.filter fun f => st.tombs.any (fun x => x.1 = f ∧ x.2 < clock - retention) && f ∉ st.active

/-- The next step of a query after its last file. -/
def nextScan (complete : List (List ρ)) : List (List Nat) → Query ρ
  | [] => .done complete
  | files :: rest => .reading complete [] files rest

/-- One step; `none` if it cannot be taken. -/
def State.step (content : Nat → List ρ) (st : State ρ) : Step → Option (State ρ)
  | .tick n => some { st with now := st.now + n }
  -- `write_all`, crates/modelardb_storage/src/data_folder/delta_table_writer.rs:157-163.
  | .write => if st.dropped then none else some { st with store := st.store ++ [st.next], pending := st.pending ++ [st.next], next := st.next + 1 }
  -- `commit`, delta_table_writer.rs:185-235.
  | .commit files =>
    if st.dropped = false ∧ files.Nodup ∧ ∀ f ∈ files, f ∈ st.pending then
      some { st with active := st.active ++ files, pending := st.pending.filter (· ∉ files) } else none
  -- `rollback`, delta_table_writer.rs:238-255.
  | .rollback f =>
    if f ∈ st.pending then some { st with store := st.store.filter (· ≠ f), pending := st.pending.filter (· ≠ f) } else none
  | .abandon f => if f ∈ st.pending then some { st with pending := st.pending.filter (· ≠ f) } else none
  -- `truncate_table`, data_folder/mod.rs:647-652, and `transfer_data`, crates/modelardb_server/src/storage/data_transfer.rs:224-261.
  | .remove clock files =>
    if st.dropped = false ∧ ∀ f ∈ files, f ∈ st.active then
      some { st with active := st.active.filter (· ∉ files), tombs := st.tombs ++ files.map fun f => (f, clock) } else none
  | .checkpoint clock => if st.dropped then none else some { st with tombs := st.tombs.filter fun x => clock - week ≤ x.2 }
  -- `vacuum_table`, data_folder/mod.rs:659-683.
  | .vacuum clock retention => if st.dropped then none else some { st with doomed := st.doomed ++ st.stale clock retention }
  | .delete f =>
    if f ∈ st.doomed then some { st with store := st.store.filter (· ≠ f), doomed := st.doomed.filter (· ≠ f) } else none
  -- `drop_table`, data_folder/mod.rs:582-587 and 625-641.
  | .drop => some { st with dropped := true, active := [], tombs := [] }
  | .deleteDropped f => if st.dropped then some { st with store := st.store.filter (· ≠ f) } else none
  | .ask q scans => if st.query q matches .idle then some (st.setQuery q (.planning scans [])) else none
  -- `scan`, crates/modelardb_storage/src/query/time_series_table.rs:521-525 and normal_table.rs:118-129: the latest version of the table is loaded, and for
  -- time series tables its files are used for all fields, time_series_table.rs:616-644. Loading fails if the table was dropped.
  | .scan q =>
    match st.query q with
    | .planning (todo + 1) plans => some (st.setQuery q (if st.dropped then .failed else .planning todo (plans ++ [st.active])))
    | _ => none
  | .execute q =>
    match st.query q with
    | .planning 0 plans => some (st.setQuery q (nextScan [] plans))
    | _ => none
  | .read q =>
    match st.query q with
    | .reading complete current [] rest => some (st.setQuery q (nextScan (complete ++ [current]) rest))
    | .reading complete current (f :: files) rest =>
      some (st.setQuery q (if f ∈ st.store then .reading complete (current ++ content f) files rest else .failed))
    | _ => none

/-- A sequence of steps. -/
def State.run (content : Nat → List ρ) (st : State ρ) : List Step → Option (State ρ)
  | [] => some st
  | s :: rest => (st.step content s).bind fun st' => st'.run content rest

/-- A table that has just been created. -/
def State.new : State ρ := ⟨0, [], [], [], [], [], 0, false, fun _ => .idle⟩

end ModelarDB.Model.Snapshots
