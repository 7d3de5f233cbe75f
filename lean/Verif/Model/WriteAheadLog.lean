/-
Model of the log of one table in `/repo/crates/modelardb_storage/src/write_ahead_log.rs`.

A batch is an opaque value of a type `β`. The folder of the log is a list of files. Operations are
split into the changes that they make to the folder: besides their result they have a list `crashes` of
the folders that a crash in the middle of the operation can leave behind. Directory operations are
taken to be durable when they return (the code does not sync the folder itself), `sync_data` makes
a batch durable, and a batch that is only partially on disk is not returned by `StreamReader`.
-/
namespace ModelarDB.Model.Wal

/-- Names of files: `{start}-.arrows` and `{start}-{end}.arrows`. -/
inductive Name where
  | active (start : Nat)
  | closed (start last : Nat)
deriving DecidableEq, Repr

/-- A file with the batches that can be read from it. `schema` is whether the schema has been
written; reading a file without it is an error. -/
structure File (β : Type) where
  name : Name
  schema : Bool
  batches : List β
deriving DecidableEq, Repr

/-- The folder of the log. -/
abbrev Disk (β : Type) := List (File β)

variable {β : Type}

/-- `File::open`. -/
def Disk.open (d : Disk β) (n : Name) : Option (File β) := d.find? fun f => f.name = n

/-- `std::fs::remove_file` of a file that exists. -/
def Disk.remove (d : Disk β) (n : Name) : Disk β := d.filter fun f => f.name ≠ n

/-- Writing a file; an existing file of the same name is replaced. -/
def Disk.put (d : Disk β) (f : File β) : Disk β := d.remove f.name ++ [f]

/-- `std::fs::rename`; `none` is an error. -/
def Disk.rename (d : Disk β) (old new : Name) : Option (Disk β) :=
  match d.open old with
  | none => none
  | some f => some ((d.remove old).put { f with name := new })

/-- `SegmentedLog` (write_ahead_log.rs:298-316) and its `ActiveSegment` (250-263). The fields are
protected by mutexes that are always taken in the same order, so operations do not interleave. -/
structure Log where
  activeStart : Nat
  nextBatchId : Nat
  approximateSize : Nat
  closed : List (Nat × Nat)
  persisted : List Nat
  threshold : Nat
deriving DecidableEq, Repr

/-- The result of an operation (`none` is a returned error) and the folders that a crash inside it can
leave behind. -/
structure Outcome (β σ : Type) where
  crashes : List (Disk β)
  result : Option (σ × Disk β)

/-- `ActiveSegment::try_new` (write_ahead_log.rs:268-291): the file is created or truncated, then the
schema is written. -/
def createActive (d : Disk β) (start : Nat) : Outcome β Unit :=
  let created := d.put ⟨.active start, false, []⟩
  ⟨[created], some ((), d.put ⟨.active start, true, []⟩)⟩

/-- `close_active_segment` (write_ahead_log.rs:414-449). -/
def closeActiveSegment (log : Log) (d : Disk β) : Outcome β Log :=
  let last := log.nextBatchId - 1
  match d.rename (.active log.activeStart) (.closed log.activeStart last) with
  | none => ⟨[], none⟩
  | some d =>
    let c := createActive d (last + 1)
    match c.result with
    | none => ⟨d :: c.crashes, none⟩
    | some (_, d') =>
      ⟨d :: c.crashes, some ({ log with
        activeStart := last + 1
        nextBatchId := last + 1
        approximateSize := 0
        closed := log.closed ++ [(log.activeStart, last)] }, d')⟩

/-- The folder after a batch has been written to the active segment. -/
def writeBatch (log : Log) (d : Disk β) (batch : β) : Option (Disk β) :=
  match d.open (.active log.activeStart) with
  | none => none
  | some f => some (d.put { f with batches := f.batches ++ [batch] })

/-- `append_and_sync` (write_ahead_log.rs:371-408): the batch id. `crashes` are the folders after the
batch has been written; a crash before that leaves the folder as it was. -/
def appendAndSync (log : Log) (d : Disk β) (batch : β) (size : Nat) : Outcome β (Nat × Log) :=
  match writeBatch log d batch with
  | none => ⟨[], none⟩
  | some d =>
    let current := log.nextBatchId
    let log := { log with nextBatchId := log.nextBatchId + 1, approximateSize := log.approximateSize + size }
    if log.approximateSize ≥ log.threshold then
      let c := closeActiveSegment log d
      ⟨d :: c.crashes, c.result.map fun r => ((current, r.1), r.2)⟩
    else ⟨[d], some ((current, log), d)⟩

/-- `is_fully_persisted` (write_ahead_log.rs:239-245). -/
def isFullyPersisted (persisted : List Nat) (segment : Nat × Nat) : Bool :=
  (List.range' segment.1 (segment.2 + 1 - segment.1)).all fun id => persisted.contains id

/-- Deletion of files one after the other: the folders in between and the final one. -/
def removeAll (d : Disk β) : List Name → List (Disk β) × Disk β
  | [] => ([], d)
  | n :: rest =>
    let r := removeAll (d.remove n) rest
    (d.remove n :: r.1, r.2)

/-- `mark_batches_as_persisted` (write_ahead_log.rs:454-495). -/
def markBatchesAsPersisted (log : Log) (d : Disk β) (ids : List Nat) : Outcome β Log :=
  let persisted := log.persisted ++ ids
  let toDelete := log.closed.filter (isFullyPersisted persisted)
  let toRetain := log.closed.filter fun s => !isFullyPersisted persisted s
  let r := removeAll d (toDelete.map fun s => .closed s.1 s.2)
  ⟨r.1, some ({ log with
    closed := toRetain
    persisted := persisted.filter fun id => !(toDelete.any fun s => decide (s.1 ≤ id ∧ id ≤ s.2)) }, r.2)⟩

/-- `read_batches_from_path` (write_ahead_log.rs:712-731); `none` is an error. -/
def readBatches (d : Disk β) (n : Name) : Option (List β) :=
  match d.open n with
  | none => none
  | some f => if f.schema then some f.batches else none

/-- The batches of a segment with their ids: `(start..=last).zip(batches)`. -/
def zipIds (start last : Nat) (batches : List β) : List (Nat × β) :=
  (List.range' start (last + 1 - start)).zip batches

/-- `all_batches` (write_ahead_log.rs:541-573). -/
def allBatches (log : Log) (d : Disk β) : Option (List (Nat × β)) :=
  match log.closed.mapM (fun s => (readBatches d (.closed s.1 s.2)).map (zipIds s.1 s.2)),
    readBatches d (.active log.activeStart) with
  | some closed, some active =>
    if active.isEmpty then some closed.flatten
    else some (closed.flatten ++ zipIds log.activeStart (log.nextBatchId - 1) active)
  | _, _ => none

/-- `unpersisted_batches` (write_ahead_log.rs:526-537). -/
def unpersistedBatches (log : Log) (d : Disk β) : Option (List (Nat × β)) :=
  (allBatches log d).map (List.filter fun p => !log.persisted.contains p.1)

/-- `truncate` (write_ahead_log.rs:578-627). -/
def truncate (log : Log) (d : Disk β) : Outcome β Log :=
  let r := removeAll d (log.closed.map fun s => .closed s.1 s.2)
  let d := r.2.remove (.active log.activeStart)
  let c := createActive d log.nextBatchId
  ⟨r.1 ++ d :: c.crashes, c.result.map fun c => ({ log with
    activeStart := log.nextBatchId
    approximateSize := 0
    closed := []
    persisted := [] }, c.2)⟩

/-- The start of the first active segment in the folder, if there is one. -/
def leftoverActive (d : Disk β) : Option Nat :=
  d.findSome? fun f => match f.name with
    | .active start => some start
    | .closed .. => none

/-- `close_leftover_active_segment` (write_ahead_log.rs:633-676): the next id implied by it, if any. -/
def closeLeftover (d : Disk β) : Outcome β (Option Nat) :=
  match leftoverActive d with
  | none => ⟨[], some (none, d)⟩
  | some start =>
    match readBatches d (.active start) with
    | none => ⟨[], none⟩
    | some [] => ⟨[], some (some start, d.remove (.active start))⟩
    | some batches =>
      let last := start + batches.length - 1
      match d.rename (.active start) (.closed start last) with
      | none => ⟨[], none⟩
      | some d => ⟨[], some (some (last + 1), d)⟩

/-- `find_closed_segments` (write_ahead_log.rs:679-706). -/
def findClosedSegments (d : Disk β) : Option (List (Nat × Nat)) :=
  d.mapM fun f => match f.name with
    | .closed start last => some (start, last)
    | .active _ => none

/-- Insertion for `sort_by_key` (write_ahead_log.rs:334). -/
def insertByStart (s : Nat × Nat) : List (Nat × Nat) → List (Nat × Nat)
  | [] => [s]
  | x :: xs => if s.1 ≤ x.1 then s :: x :: xs else x :: insertByStart s xs

/-- `sort_by_key(|s| s.start_id)`. -/
def sortByStart (l : List (Nat × Nat)) : List (Nat × Nat) := l.foldr insertByStart []

/-- The next id (write_ahead_log.rs:338-342). -/
def nextId (closed : List (Nat × Nat)) (leftover : Option Nat) : Nat :=
  ((closed.getLast?.map fun s => s.2 + 1).or leftover).getD 0

/-- `SegmentedLog::try_new` (write_ahead_log.rs:323-366). -/
def tryNew (threshold : Nat) (d : Disk β) : Outcome β Log :=
  let c := closeLeftover d
  match c.result with
  | none => ⟨c.crashes, none⟩
  | some (leftover, d) =>
    match findClosedSegments d with
    | none => ⟨c.crashes ++ [d], none⟩
    | some closed =>
      let closed := sortByStart closed
      let next := nextId closed leftover
      let a := createActive d next
      ⟨c.crashes ++ d :: a.crashes, a.result.map fun a => (⟨next, next, 0, closed, [], threshold⟩, a.2)⟩

/-- Start of the log of an existing table (write_ahead_log.rs:80-95 and 500-521): `commits` are the ids
in the commit history of the Delta table. -/
def restart (threshold : Nat) (d : Disk β) (commits : List Nat) : Outcome β Log :=
  let c := tryNew threshold d
  match c.result with
  | none => ⟨c.crashes, none⟩
  | some (log, d) =>
    let m := markBatchesAsPersisted log d commits
    ⟨c.crashes ++ d :: m.crashes, m.result⟩

end ModelarDB.Model.Wal
