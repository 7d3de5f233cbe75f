import Mathlib.Data.List.Basic
/-
Programs that have the same data folder open at the same time: programs with the embedded library and servers.

Source: crates/modelardb_storage/src/data_folder/mod.rs, crates/modelardb_storage/src/lib.rs, crates/modelardb_embedded/src/operations/data_folder.rs,
crates/modelardb_embedded/src/operations/client.rs, crates/modelardb_server/src/context.rs and crates/modelardb_server/src/remote.rs.

Simplifications:
* Each request is one step and does not fail in between, see C31 for crashes.
* Names stand for themselves, see `Model/TableNames.lean` for those that do not.
* A table is a name, its kind and the schema that queries use. Schemas are abstract and can be stored, see C30 and C82.
* `DeltaTable::load` of the crate deltalake, which is not part of the repository, loads the latest version of a table that is in the cache
  (data_folder/mod.rs:781-806), so that the cache has no effect. A table that a program is up to date with is never cached with an old version.
* Servers run on their own or are edge nodes, so that one data folder stores data and is queried.
-/
namespace ModelarDB.Model.OpenFolders

/-- The kinds of tables. -/
inductive Kind where
  | normal | timeSeries
deriving DecidableEq, Repr

/-- A table that queries can use. -/
structure Definition (σ : Type) where
  kind : Kind
  schema : σ
deriving DecidableEq, Repr

/-- A data folder: the Delta tables, with the schema for normal tables, and the rows of `normal_table_metadata` and `time_series_table_metadata`
(data_folder/mod.rs:273-339). Delta tables of time series tables are partitioned, which is how they are told apart, and contain segments. -/
structure Disk (σ : Type) where
  deltas : List (String × Option σ)
  normalRows : List String
  seriesRows : List (String × σ)
deriving DecidableEq, Repr

/-- The tables that are registered with DataFusion by a program. -/
abbrev Session (σ : Type) := List (String × Definition σ)

/-- What a program is. -/
inductive Role where
  | folder | server
deriving DecidableEq, Repr

/-- The data folder and the programs that have it open. -/
structure State (σ : Type) where
  disk : Disk σ
  session : Nat → Option (Session σ)

variable {σ : Type}

/-- An empty data folder that no program has open. -/
def State.empty : State σ := ⟨⟨[], [], []⟩, fun _ => none⟩

/-- Set what a program has registered. -/
def State.setSession (st : State σ) (p : Nat) (s : Option (Session σ)) : State σ := { st with session := fun q => if q = p then s else st.session q }

/-- `SessionContext::register_table`, an error if the name is registered (storage/src/lib.rs:100-126). -/
def register (s : Session σ) (name : String) (d : Definition σ) : Option (Session σ) :=
  if (s.lookup name).isSome then none else some (s ++ [(name, d)])

/-- Register tables in order. -/
def registerAll : Session σ → List (String × Definition σ) → Option (Session σ)
  | s, [] => some s
  | s, (n, d) :: rest => (register s n d).bind (registerAll · rest)

/-- A normal table of `normal_table_metadata`, which must have a Delta table. -/
def normalOf (disk : Disk σ) (name : String) : Option (String × Definition σ) :=
  match disk.deltas.lookup name with
  | some (some schema) => some (name, ⟨.normal, schema⟩)
  | _ => none

/-- A time series table of `time_series_table_metadata`, which must have a Delta table. -/
def seriesOf (disk : Disk σ) (row : String × σ) : Option (String × Definition σ) :=
  match disk.deltas.lookup row.1 with
  | some _ => some (row.1, ⟨.timeSeries, row.2⟩)
  | none => none

/-- Opening a data folder: `register_tables` (data_folder/mod.rs:363-390 and capi.rs:110-118) and, for servers, `register_normal_tables` and
`register_time_series_tables` (server/src/context.rs:156-170 and 209-223). -/
def openSession (disk : Disk σ) : Option (Session σ) := do
  let normal ← disk.normalRows.mapM (normalOf disk)
  let series ← disk.seriesRows.mapM (seriesOf disk)
  registerAll [] (normal ++ series)

/-- `create_normal_table` and `create_time_series_table` (data_folder/mod.rs:396-451). -/
def Disk.add (disk : Disk σ) (name : String) (d : Definition σ) : Disk σ :=
  match d.kind with
  | .normal => { disk with deltas := disk.deltas ++ [(name, some d.schema)], normalRows := disk.normalRows ++ [name] }
  | .timeSeries => { disk with deltas := disk.deltas ++ [(name, none)], seriesRows := disk.seriesRows ++ [(name, d.schema)] }

/-- `create` (operations/data_folder.rs:124-161 and server/src/context.rs:76-155). A server looks for the name among its tables first. The Delta
table must not exist, and is created before the table is registered. The result is whether it succeeded. -/
def create (role : Role) (st : State σ) (p : Nat) (s : Session σ) (name : String) (d : Definition σ) : State σ × Bool :=
  if role = .server ∧ (s.lookup name).isSome then (st, false)
  else if (st.disk.deltas.lookup name).isSome then (st, false)
  else
    match register s name d with
    | some s' => (({ st with disk := st.disk.add name d } : State σ).setSession p (some s'), true)
    | none => ({ st with disk := st.disk.add name d }, false)

/-- `drop_table` of a data folder (data_folder/mod.rs:582-621): the rows that are deleted depend on the Delta table. `none` if there is none. -/
def Disk.remove (disk : Disk σ) (name : String) : Option (Disk σ) :=
  match disk.deltas.lookup name with
  | none => none
  | some (some _) => some { disk with deltas := disk.deltas.filter (·.1 ≠ name), normalRows := disk.normalRows.filter (· ≠ name) }
  | some none => some { disk with deltas := disk.deltas.filter (·.1 ≠ name), seriesRows := disk.seriesRows.filter (·.1 ≠ name) }

/-- `drop` (operations/data_folder.rs:511-519 and server/src/context.rs:306-335): the table is deregistered first. -/
def drop (role : Role) (st : State σ) (p : Nat) (s : Session σ) (name : String) : State σ × Bool :=
  if role = .server ∧ (s.lookup name).isNone then (st, false)
  else
    let st' := st.setSession p (some (s.filter (·.1 ≠ name)))
    match st.disk.remove name with
    | some disk => ({ st' with disk := disk }, true)
    | none => (st', false)

/-- What programs do. -/
inductive Event (σ : Type) where
  | start (program : Nat)
  | stop (program : Nat)
  | create (program : Nat) (name : String) (d : Definition σ)
  | drop (program : Nat) (name : String)
deriving DecidableEq, Repr

/-- One step. Programs that do not have the data folder open cannot do anything with it. -/
def step (role : Nat → Role) (st : State σ) : Event σ → State σ × Bool
  | .start p =>
    match openSession st.disk with
    | some s => (st.setSession p (some s), true)
    | none => (st.setSession p none, false)
  | .stop p => (st.setSession p none, true)
  | .create p name d =>
    match st.session p with
    | some s => create (role p) st p s name d
    | none => (st, false)
  | .drop p name =>
    match st.session p with
    | some s => drop (role p) st p s name
    | none => (st, false)

/-- The state after events, of which the newest is the first. -/
def run (role : Nat → Role) : List (Event σ) → State σ
  | [] => .empty
  | e :: older => (step role (run role older) e).1

/-! ### What programs are told -/

/-- `tables`: a data folder reads the metadata tables (operations/data_folder.rs:166-168 and data_folder/mod.rs:828-865), and a server lists what is
registered, which a client is sent (server/src/remote.rs:547-561 and operations/client.rs:128-149). -/
def tables (role : Role) (st : State σ) (s : Session σ) : List String :=
  match role with
  | .folder => st.disk.normalRows ++ st.disk.seriesRows.map Prod.fst
  | .server => s.map Prod.fst

/-- `schema`: of a time series table that is registered or else of a normal table on disk (operations/data_folder.rs:172-187 and
data_folder/mod.rs:869-885 and 958-964), and for a server of any table that is registered (server/src/remote.rs:615-631, server/src/context.rs:442-454
and operations/client.rs:153-159). -/
def schema (role : Role) (st : State σ) (s : Session σ) (name : String) : Option σ :=
  match role with
  | .folder =>
    match s.lookup name with
    | some ⟨.timeSeries, x⟩ => some x
    | _ => (st.disk.deltas.lookup name).join
  | .server => (s.lookup name).map (·.schema)

/-- The table that a query with the name reads: it must be registered and its Delta table must exist (query/normal_table.rs:111-134). -/
def queried (st : State σ) (s : Session σ) (name : String) : Option (Definition σ) :=
  if (st.disk.deltas.lookup name).isSome then s.lookup name else none

end ModelarDB.Model.OpenFolders
