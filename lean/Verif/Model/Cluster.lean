import Mathlib.Data.List.Basic
/-
Clusters of nodes with a remote data folder (crates/modelardb_storage/src/data_folder/cluster.rs, crates/modelardb_server/src/cluster.rs,
crates/modelardb_server/src/remote.rs and crates/modelardb_server/src/main.rs).

Simplifications:
* Reading and changing rows of a metadata table, and changing a table in one data folder, are atomic and only fail for the reasons given here.
  Crashes in the middle of a change of a data folder are modelled in Verif.Model.DataFolder.
* Universally unique identifiers differ.
* A cluster has nodes that are identified by their URLs, except in the model of joining and leaving.
-/
namespace ModelarDB.Model.Cluster

/-! ### Joining and leaving -/

/-- How far a node is with `Cluster::try_new` (server/src/cluster.rs:59-76). -/
inductive Joining where
  | outside
  /-- The node has been saved. -/
  | saved
  /-- The node found no key and will create one. -/
  | creating
  | joined (key : Nat)
deriving DecidableEq, Repr

/-- The metadata tables `cluster_metadata` and `nodes` in the remote data folder and the nodes. -/
structure Members (ν : Type) where
  keys : List Nat
  rows : List ν
  node : Nat → Joining

/-- A step of a node. -/
inductive JoinStep where
  /-- `save_node` (data_folder/cluster.rs:105-116). -/
  | save (node : Nat)
  /-- The query of `cluster_key` (data_folder/cluster.rs:76-82 and 95), whose rows may be in any order, so `row` may be any row. -/
  | read (node row : Nat)
  /-- Writing a new key in `cluster_key` (data_folder/cluster.rs:83-94). -/
  | create (node key : Nat)
  /-- `remove_node` (data_folder/cluster.rs:121-130) by the handler for CTRL+C (server/src/main.rs:170-188), which is set up after joining. -/
  | leave (node : Nat)
  /-- The process ends in another way, e.g. since a later step of starting fails (server/src/main.rs:142-152). -/
  | crash (node : Nat)
deriving DecidableEq, Repr

/-- Set the state of a node. -/
def setNode (node : Nat → Joining) (n : Nat) (s : Joining) : Nat → Joining := fun n' => if n' = n then s else node n'

/-- A step of a node, `none` if the node cannot make the step. `url` is the URL of each node (server/src/data_folders.rs:59). -/
def joinStep {ν : Type} [DecidableEq ν] (url : Nat → ν) (m : Members ν) : JoinStep → Option (Members ν)
  | .save n => if m.node n = .outside then some { m with rows := m.rows ++ [url n], node := setNode m.node n .saved } else none
  | .read n row =>
    if m.node n = .saved then
      match m.keys with
      | [] => some { m with node := setNode m.node n .creating }
      | _ :: _ => m.keys[row]?.map fun key => { m with node := setNode m.node n (.joined key) }
    else none
  | .create n key =>
    if m.node n = .creating ∧ key ∉ m.keys then some { m with keys := m.keys ++ [key], node := setNode m.node n (.joined key) } else none
  | .leave n =>
    match m.node n with
    | .joined _ => some { m with rows := m.rows.filter (· ≠ url n), node := setNode m.node n .outside }
    | _ => none
  | .crash n => some { m with node := setNode m.node n .outside }

/-- Several steps of nodes. -/
def joinRun {ν : Type} [DecidableEq ν] (url : Nat → ν) (m : Members ν) : List JoinStep → Option (Members ν)
  | [] => some m
  | s :: rest => (joinStep url m s).bind fun m' => joinRun url m' rest

/-! ### Changing tables in a cluster -/

/-- The tables of a data folder with their definitions `δ`. -/
abbrev Tables (δ : Type) := List (String × δ)

/-- A change of tables. -/
inductive Change (δ : Type) where
  | create (name : String) (definition : δ)
  | drop (names : List String)
deriving DecidableEq

variable {δ ν : Type} [DecidableEq δ] [DecidableEq ν]

/-- Dropping tables in order until one does not exist (server/src/remote.rs:400-405 and server/src/cluster.rs:196-198). The result is the tables and
whether all were dropped. -/
def dropAll (t : Tables δ) : List String → Tables δ × Bool
  | [] => (t, true)
  | name :: rest => if (t.lookup name).isSome then dropAll (t.filter fun p => p.1 ≠ name) rest else (t, false)

/-- A change in one data folder (server/src/context.rs:76-81, 106-127 and 308-335, data_folder/mod.rs:396-414 and 582-587). -/
def change (t : Tables δ) : Change δ → Tables δ × Bool
  | .create name d => if (t.lookup name).isSome then (t, false) else (t ++ [(name, d)], true)
  | .drop names => dropAll t names

/-- `retrieve_and_create_tables` (server/src/cluster.rs:92-116), modelled in detail below: the tables afterwards, `none` for an error. -/
def load (l r : Tables δ) : Option (Tables δ) :=
  if l.all fun p => r.lookup p.1 = some p.2 then some (l ++ r.filter fun p => (l.lookup p.1).isNone) else none

/-- How far a node is with starting (server/src/main.rs:142-162). -/
inductive Phase where
  | outside
  /-- The node has been saved in the cluster. -/
  | saved
  /-- The tables have been retrieved and created. -/
  | loaded
  /-- The node receives requests. -/
  | serving
deriving DecidableEq, Repr

/-- A node, whose tables remain in its local data folder when it is not running. -/
structure Node (δ : Type) where
  phase : Phase
  tables : Tables δ
  key : Nat
deriving DecidableEq

/-- How far a request from a client to the node `at` is. -/
inductive Request (ν δ : Type) where
  | idle
  /-- The remote data folder is to be changed. -/
  | remote (at_ : ν) (c : Change δ)
  /-- The other nodes are to be retrieved. -/
  | peers (at_ : ν) (c : Change δ)
  /-- The change is to be sent to, or executed by, the nodes in `pending`, and then executed by the node. -/
  | sending (at_ : ν) (c : Change δ) (pending : List ν)
  | succeeded (at_ : ν) (c : Change δ)
  /-- The request failed, although nodes in `pending` may still execute it. -/
  | failed (at_ : ν) (c : Change δ) (pending : List ν)
deriving DecidableEq

/-- A cluster: the tables in the remote data folder, the rows of the metadata table `nodes`, the nodes and the requests from clients. -/
structure State (ν δ : Type) where
  remote : Tables δ
  rows : List ν
  node : ν → Node δ
  request : Nat → Request ν δ

/-- Set a node. -/
def State.setNode (st : State ν δ) (u : ν) (n : Node δ) : State ν δ := { st with node := fun v => if v = u then n else st.node v }

/-- Set a request. -/
def State.setRequest (st : State ν δ) (i : Nat) (q : Request ν δ) : State ν δ :=
  { st with request := fun j => if j = i then q else st.request j }

/-- What happens to a request to another node. -/
inductive Delivery where
  /-- The node executes the request and the reply arrives. -/
  | delivered
  /-- The node executes the request but the reply does not arrive. -/
  | replyLost
  /-- The node does not execute the request, e.g. since it cannot be reached. -/
  | requestLost
deriving DecidableEq, Repr

/-- A step in a cluster. -/
inductive Step (ν δ : Type) where
  | save (u : ν)
  | load (u : ν)
  | serve (u : ν)
  | leave (u : ν)
  | crash (u : ν)
  /-- The client sends a request to a node, maybe with a cluster key. -/
  | begin_ (i : Nat) (u : ν) (c : Change δ) (key : Option Nat)
  | remote (i : Nat)
  | peers (i : Nat)
  | deliver (i : Nat) (u : ν) (d : Delivery)
  | finish (i : Nat)
deriving DecidableEq

/-- A process ends, and with it the requests that it handles. -/
def stop (u : ν) : Request ν δ → Request ν δ
  | .remote v c => if v = u then .failed v c [] else .remote v c
  | .peers v c => if v = u then .failed v c [] else .peers v c
  | .sending v c pending => if v = u then .failed v c pending else .sending v c pending
  | q => q

/-- A node executes a request with the cluster key `key` (server/src/remote.rs:258-273, 322-345, 352-374 and 381-408): with the key of the cluster
only its tables change. The result is whether it replies that it succeeded. -/
def execute (st : State ν δ) (u : ν) (key : Nat) (c : Change δ) : State ν δ × Bool :=
  if (st.node u).phase = .serving ∧ (st.node u).key = key then
    (st.setNode u { st.node u with tables := (change (st.node u).tables c).1 }, (change (st.node u).tables c).2)
  else (st, false)

/-- A step, `none` if it is not possible. -/
def step (st : State ν δ) : Step ν δ → Option (State ν δ)
  -- server/src/cluster.rs:64.
  | .save u =>
    if (st.node u).phase = .outside then
      some { st.setNode u { st.node u with phase := .saved } with rows := st.rows ++ [u] }
    else none
  -- server/src/main.rs:151-153.
  | .load u =>
    if (st.node u).phase = .saved then
      match load (st.node u).tables st.remote with
      | some t => some (st.setNode u { st.node u with phase := .loaded, tables := t })
      | none => some (st.setNode u { st.node u with phase := .outside })
    else none
  -- server/src/main.rs:162.
  | .serve u => if (st.node u).phase = .loaded then some (st.setNode u { st.node u with phase := .serving }) else none
  -- server/src/main.rs:181-184.
  | .leave u =>
    if (st.node u).phase = .serving then
      some { st.setNode u { st.node u with phase := .outside } with
        rows := st.rows.filter (· ≠ u), request := fun i => stop u (st.request i) }
    else none
  | .crash u => some { st.setNode u { st.node u with phase := .outside } with request := fun i => stop u (st.request i) }
  -- server/src/remote.rs:328-334, 357-363 and 386-392.
  | .begin_ i u c key =>
    if (st.node u).phase = .serving ∧ st.request i = .idle then
      match key with
      | none => some (st.setRequest i (.remote u c))
      | some k => some (st.setRequest i (if k = (st.node u).key then .sending u c [] else .failed u c []))
    else none
  -- server/src/cluster.rs:144-148, 172-174 and 195-198.
  | .remote i =>
    match st.request i with
    | .remote u c =>
      some ({ st with remote := (change st.remote c).1 }.setRequest i (if (change st.remote c).2 then .peers u c else .failed u c []))
    | _ => none
  -- `peer_nodes` (server/src/cluster.rs:332-339).
  | .peers i =>
    match st.request i with
    | .peers u c => some (st.setRequest i (.sending u c (st.rows.filter (· ≠ u))))
    | _ => none
  -- `cluster_do_get` and `cluster_do_action` (server/src/cluster.rs:254-270 and 293-310), which return the first error at once.
  | .deliver i u d =>
    match st.request i with
    | .sending v c pending =>
      if u ∈ pending then
        match d with
        | .requestLost => some (st.setRequest i (.failed v c (pending.erase u)))
        | .replyLost => some ((execute st u (st.node v).key c).1.setRequest i (.failed v c (pending.erase u)))
        | .delivered =>
          some ((execute st u (st.node v).key c).1.setRequest i
            (if (execute st u (st.node v).key c).2 then .sending v c (pending.erase u) else .failed v c (pending.erase u)))
      else none
    | .failed v c pending =>
      if u ∈ pending then
        match d with
        | .requestLost => some (st.setRequest i (.failed v c (pending.erase u)))
        | _ => some ((execute st u (st.node v).key c).1.setRequest i (.failed v c (pending.erase u)))
      else none
    | _ => none
  -- server/src/remote.rs:339-342, 368-371 and 400-405.
  | .finish i =>
    match st.request i with
    | .sending v c [] =>
      some ((st.setNode v { st.node v with tables := (change (st.node v).tables c).1 }).setRequest i
        (if (change (st.node v).tables c).2 then .succeeded v c else .failed v c []))
    | _ => none

/-- Several steps. -/
def run (st : State ν δ) : List (Step ν δ) → Option (State ν δ)
  | [] => some st
  | s :: rest => (step st s).bind fun st' => run st' rest

/-! ### Tables when a node starts -/

/-- A data folder: the names in `normal_table_metadata`, the tables in `time_series_table_metadata` with their metadata `μ`, and the Delta tables
with their schemas `σ`. -/
structure Folder (μ σ : Type) where
  normal : List String
  series : List (String × μ)
  delta : List (String × σ)
deriving DecidableEq

variable {μ σ : Type} [DecidableEq σ]

/-- `table_names` (data_folder/mod.rs:828-836). -/
def Folder.names (f : Folder μ σ) : List String := f.normal ++ f.series.map Prod.fst

/-- `validate_local_tables_exist_remotely` (server/src/cluster.rs:354-375). -/
def localExistRemotely (l r : Folder μ σ) : Bool := l.names.all (r.names.contains ·)

/-- `validate_normal_tables` (server/src/cluster.rs:381-405): the missing tables, `none` for an error. `normal_table_schema`
(server/src/cluster.rs:409-411) reads the Delta table with the name whether or not it is a normal table. -/
def missingNormal (l r : Folder μ σ) : List String → Option (List (String × σ))
  | [] => some []
  | name :: rest =>
    match r.delta.lookup name with
    | none => none
    | some remoteSchema =>
      match l.delta.lookup name with
      | some localSchema => if remoteSchema = localSchema then missingNormal l r rest else none
      | none => (missingNormal l r rest).map ((name, remoteSchema) :: ·)

/-- `validate_time_series_tables` (server/src/cluster.rs:417-446). `same` is the equality of metadata. -/
def missingSeries (same : μ → μ → Bool) (l : Folder μ σ) : List (String × μ) → Option (List (String × μ))
  | [] => some []
  | (name, remoteMetadata) :: rest =>
    match l.series.lookup name with
    | some localMetadata => if same remoteMetadata localMetadata then missingSeries same l rest else none
    | none => (missingSeries same l rest).map ((name, remoteMetadata) :: ·)

/-- `Context::create_normal_table` (server/src/context.rs:76-102): `none` if a table with the name is registered or the Delta table exists. -/
def createNormal (f : Folder μ σ) (name : String) (schema : σ) : Option (Folder μ σ) :=
  if name ∈ f.names ∨ (f.delta.lookup name).isSome then none
  else some { f with normal := f.normal ++ [name], delta := f.delta ++ [(name, schema)] }

/-- `Context::create_time_series_table` (server/src/context.rs:106-127). `compressed` is the schema of the Delta table. -/
def createSeries (compressed : μ → σ) (f : Folder μ σ) (name : String) (m : μ) : Option (Folder μ σ) :=
  if name ∈ f.names ∨ (f.delta.lookup name).isSome then none
  else some { f with series := f.series ++ [(name, m)], delta := f.delta ++ [(name, compressed m)] }

/-- Creating the missing normal tables (server/src/cluster.rs:105-107). -/
def createNormals (f : Folder μ σ) : List (String × σ) → Option (Folder μ σ)
  | [] => some f
  | (name, schema) :: rest => (createNormal f name schema).bind fun f' => createNormals f' rest

/-- Creating the missing time series tables (server/src/cluster.rs:109-113). -/
def createAllSeries (compressed : μ → σ) (f : Folder μ σ) : List (String × μ) → Option (Folder μ σ)
  | [] => some f
  | (name, m) :: rest => (createSeries compressed f name m).bind fun f' => createAllSeries compressed f' rest

/-- `retrieve_and_create_tables` (server/src/cluster.rs:92-116), `none` for an error. -/
def retrieveAndCreate (same : μ → μ → Bool) (compressed : μ → σ) (l r : Folder μ σ) : Option (Folder μ σ) :=
  if localExistRemotely l r then
    (missingNormal l r r.normal).bind fun normal =>
    (missingSeries same l r.series).bind fun series =>
    (createNormals l normal).bind fun l' => createAllSeries compressed l' series
  else none

end ModelarDB.Model.Cluster
