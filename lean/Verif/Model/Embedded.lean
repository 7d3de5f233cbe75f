import Verif.Model.ErrorBound
/-
The operations of the embedded library on data folders (crates/modelardb_embedded/src/operations/data_folder.rs).

The tables of all data folders are one state, whose keys are the location of a data folder and the name of a table, so a data folder that is
opened twice has the same tables. What a table stores are items: rows of a normal table and segments of a time series table. Writing adds items
in one commit and deleting removes all items in one commit, see Model.DeltaWriter. Reading the metadata of tables does not fail.
-/
namespace ModelarDB.Model.Embedded

/-- A column. -/
structure Column (δ : Type) where
  name : String
  type : δ
  nullable : Bool
deriving DecidableEq

/-- A value with its type, or null. -/
abbrev Cell (δ ν : Type) := Option (δ × ν)

/-- A `RecordBatch`. -/
structure Batch (δ ν : Type) where
  schema : List (Column δ)
  rows : List (List (Cell δ ν))
deriving DecidableEq

inductive Kind where
  | normal
  | timeSeries
deriving DecidableEq

/-- A table. -/
structure Table (δ σ : Type) where
  kind : Kind
  schema : List (Column δ)
  bounds : List ErrorBound
  items : List σ
deriving DecidableEq

/-- All tables. -/
abbrev State (κ δ σ : Type) := κ → Option (Table δ σ)

variable {κ δ ν σ : Type} [DecidableEq κ] [DecidableEq δ]

/-- Replace a table. -/
def State.set (st : State κ δ σ) (key : κ) (table : Table δ σ) : State κ δ σ := fun k => if k = key then some table else st k

/-- Add items to a table. -/
def State.append (st : State κ δ σ) (key : κ) (items : List σ) : State κ δ σ :=
  match st key with
  | none => st
  | some t => st.set key { t with items := t.items ++ items }

/-- `schemas_are_compatible` (data_folder.rs:547-569). -/
def schemasAreCompatible (source target : List (Column δ)) : Bool :=
  if source.length ≠ target.length then false
  else (source.zip target).all fun (s, t) => if s.type ≠ t.type then false else if s.nullable && !t.nullable then false else true

/-- Why an operation fails. -/
inductive Error where
  | empty
  | mismatch
  | notTable
  | failed
deriving DecidableEq

/-- `write` (data_folder.rs:191-236). `encode` are the items for a batch, which is compressed first for a time series table, or `none` if that or
the Delta Lake fails. -/
def write (encode : Table δ σ → Batch δ ν → Option (List σ)) (st : State κ δ σ) (key : κ) (batch : Batch δ ν) : Except Error (State κ δ σ) :=
  if batch.rows.length = 0 then .error .empty
  else
    match st key with
    | none => .error .notTable
    | some t =>
      if !schemasAreCompatible batch.schema t.schema then .error .mismatch
      else
        match encode t batch with
        | none => .error .failed
        | some items => .ok (st.append key items)

/-- The checks of `move` and the items that it reads (data_folder.rs:427-482). -/
def moveScan (st : State κ δ σ) (source target : κ) : Except Error (List σ) :=
  match st source, st target with
  | some s, some t =>
    if s.kind = t.kind then
      if !schemasAreCompatible s.schema t.schema then .error .mismatch else .ok s.items
    else .error .notTable
  | _, _ => .error .notTable

/-- `truncate` (data_folder.rs:495-505 and crates/modelardb_storage/src/data_folder/mod.rs:647-652). -/
def truncate (st : State κ δ σ) (key : κ) : Except Error (State κ δ σ) :=
  match st key with
  | none => .error .notTable
  | some t => .ok (st.set key { t with items := [] })

/-- Items that others add to tables at the same time. -/
abbrev Others (κ σ : Type) := List (κ × List σ)

/-- The tables after others added items. -/
def addOthers (st : State κ δ σ) (others : Others κ σ) : State κ δ σ := others.foldl (fun st o => st.append o.1 o.2) st

/-- The result of an operation: the tables and whether it succeeded. -/
abbrev Outcome (κ δ σ : Type) := State κ δ σ × Option Error

/-- `move` (data_folder.rs:421-491). `others` is what is added to tables after the items are read and after they are written, and the last two
arguments are whether writing and deleting fail. -/
def move (st : State κ δ σ) (source target : κ) (others₁ others₂ : Others κ σ) (writeFails truncateFails : Bool) : Outcome κ δ σ :=
  match moveScan st source target with
  | .error e => (st, some e)
  | .ok items =>
    let st₁ := addOthers st others₁
    if writeFails then (st₁, some .failed)
    else
      let st₂ := addOthers (st₁.append target items) others₂
      if truncateFails then (st₂, some .failed)
      else
        match truncate st₂ source with
        | .error e => (st₂, some e)
        | .ok st₃ => (st₃, none)

/-- The clause WHERE of `copy_time_series_table` (data_folder.rs:380-396). -/
def inWhere (startTime endTime : Option Int) (interval : Int × Int) : Bool :=
  (match startTime with | some x => decide (x ≤ interval.1) | none => true) &&
  (match endTime with | some x => decide (interval.2 ≤ x) | none => true)

/-- `copy_time_series_table` (data_folder.rs:335-415). `interval` are the start time and the end time of a segment. -/
def copyTimeSeriesTable (interval : σ → Int × Int) (st : State κ δ σ) (source target : κ) (startTime endTime : Option Int) (writeFails : Bool) :
    Outcome κ δ σ :=
  match st source, st target with
  | some s, some t =>
    if s.kind = .timeSeries ∧ t.kind = .timeSeries then
      if !schemasAreCompatible s.schema t.schema then (st, some .mismatch)
      else
        let items := s.items.filter fun i => inWhere startTime endTime (interval i)
        if writeFails then (st, some .failed) else (st.append target items, none)
    else (st, some .notTable)
  | _, _ => (st, some .notTable)

end ModelarDB.Model.Embedded
