import Mathlib.Data.List.Basic
/-
The rows of the tables of a cluster: the nodes with the rows in their memory and local data folders, the remote data folder, the list of nodes in the
remote data folder, deleting all rows of tables in the whole cluster, and finding a node for a query (crates/modelardb_server/src/cluster.rs,
crates/modelardb_server/src/remote.rs, crates/modelardb_server/src/context.rs, crates/modelardb_server/src/data_folders.rs and
crates/modelardb_server/src/main.rs).

Simplifications:
* The tables `known` exist in all data folders and are not created or dropped. How they are created and dropped is in Verif.Model.Cluster.
* Saving rows, transferring rows and deleting the rows of one table in one data folder are atomic and do not fail. How they interleave in one node is in
  Verif.Model.Locks and Verif.Model.Lifetimes, how rows are transferred is in Verif.Model.DataTransfer.
* The write-ahead log is used, so rows in memory are in memory again when a node is restarted after a crash (Verif.Model.Restarts).
* Nodes are identified by their URLs and keep their local data folders.
-/
namespace ModelarDB.Model.ClusterData

/-- `ServerMode` (crates/modelardb_types/src/types.rs:380-383). -/
inductive Mode where
  | edge
  | cloud
deriving DecidableEq, Repr

/-- How far a node is with starting (server/src/main.rs:142-162). -/
inductive Phase where
  | outside
  /-- The node has been saved in the list of nodes (server/src/cluster.rs:64), but does not receive requests. -/
  | saved
  /-- The node receives requests (server/src/main.rs:162). -/
  | serving
deriving DecidableEq, Repr

/-- A node with the rows `ρ` of each table. -/
structure Node (ρ : Type) where
  phase : Phase
  mode : Mode
  /-- The rows in memory, which are also in the write-ahead log. -/
  memory : String → List ρ
  /-- The rows in the local data folder. -/
  disk : String → List ρ

/-- How far a request to delete all rows of tables in the whole cluster is. -/
inductive Request (ν : Type) where
  | idle
  /-- The rows of the tables in `todo` are to be deleted from the remote data folder. -/
  | remote (at_ : ν) (names todo : List String)
  /-- The other nodes are to be retrieved. -/
  | peers (at_ : ν) (names : List String)
  /-- The nodes in `pending` are to delete the rows, and then the node itself. -/
  | sending (at_ : ν) (names : List String) (pending : List ν)
  | succeeded (at_ : ν) (names : List String)
  /-- The request failed, although nodes in `pending` may still execute it. -/
  | failed (at_ : ν) (names : List String) (pending : List ν)
deriving DecidableEq

/-- A cluster: the tables, the rows in the remote data folder, the rows of the metadata table `nodes`, the nodes and the requests. -/
structure State (ν ρ : Type) where
  known : String → Bool
  remote : String → List ρ
  listed : List (ν × Mode)
  node : ν → Node ρ
  request : Nat → Request ν

/-- What happens to a request to another node. -/
inductive Delivery where
  /-- The node executes the request and the reply arrives. -/
  | delivered
  /-- The node executes the request but the reply does not arrive. -/
  | replyLost
  /-- The node does not execute the request, e.g. since it cannot be reached. -/
  | requestLost
deriving DecidableEq, Repr

/-- A step in a cluster. -/
inductive Step (ν ρ : Type) where
  | start (u : ν) (mode : Mode)
  | serve (u : ν)
  /-- The action KillNode. -/
  | kill (u : ν)
  /-- CTRL+C. -/
  | stop (u : ν)
  | crash (u : ν)
  | ingest (u : ν) (table : String) (row : ρ)
  /-- Rows are saved by the storage engine when it decides so. -/
  | save (u : ν) (table : String)
  /-- Rows are transferred when the amount or time that is configured is reached. -/
  | transfer (u : ν) (table : String)
  /-- The action FlushNode. -/
  | flushNode (u : ν)
  /-- TRUNCATE. -/
  | truncate (u : ν) (names : List String)
  /-- TRUNCATE CLUSTER. -/
  | begin_ (i : Nat) (u : ν) (names : List String)
  | remote (i : Nat)
  | peers (i : Nat)
  | deliver (i : Nat) (u : ν) (d : Delivery)
  | finish (i : Nat)
deriving DecidableEq

variable {ν ρ : Type} [DecidableEq ν]

/-- Set the rows of a table. -/
def setRows (f : String → List ρ) (table : String) (rows : List ρ) : String → List ρ := fun t => if t = table then rows else f t

/-- Set a node. -/
def State.setNode (st : State ν ρ) (u : ν) (n : Node ρ) : State ν ρ := { st with node := fun v => if v = u then n else st.node v }

/-- Set a request. -/
def State.setRequest (st : State ν ρ) (i : Nat) (q : Request ν) : State ν ρ :=
  { st with request := fun j => if j = i then q else st.request j }

/-- `StorageEngine::flush` (server/src/storage/mod.rs:296-301): all rows in memory are saved. -/
def Node.flush (n : Node ρ) : Node ρ := { n with memory := fun _ => [], disk := fun t => n.disk t ++ n.memory t }

/-- `Context::truncate_table` (server/src/context.rs:340-366 and 372-379): all rows in memory are saved and the rows of the table are deleted. -/
def Node.truncate (n : Node ρ) (table : String) : Node ρ := { n.flush with disk := setRows n.flush.disk table [] }

/-- Deleting the rows of tables in order until one does not exist (server/src/remote.rs:430-435). The result is whether all rows were deleted. -/
def Node.truncateAll (known : String → Bool) (n : Node ρ) : List String → Node ρ × Bool
  | [] => (n, true)
  | table :: rest => if known table then (n.truncate table).truncateAll known rest else (n, false)

/-- `StorageEngine::transfer` (server/src/storage/mod.rs:304-312) for all tables of a node. -/
def State.transferAll (st : State ν ρ) (u : ν) : State ν ρ :=
  { st.setNode u { st.node u with disk := fun _ => [] } with remote := fun t => st.remote t ++ (st.node u).disk t }

/-- A process ends, and with it the requests that it handles. -/
def endRequest (u : ν) : Request ν → Request ν
  | .remote v names todo => if v = u then .failed v names [] else .remote v names todo
  | .peers v names => if v = u then .failed v names [] else .peers v names
  | .sending v names pending => if v = u then .failed v names pending else .sending v names pending
  | q => q

/-- A process ends. -/
def State.endProcess (st : State ν ρ) (u : ν) : State ν ρ :=
  { st.setNode u { st.node u with phase := .outside } with request := fun i => endRequest u (st.request i) }

/-- `remove_node` (crates/modelardb_storage/src/data_folder/cluster.rs:121-130). -/
def State.unlist (st : State ν ρ) (u : ν) : State ν ρ := { st with listed := st.listed.filter (·.1 ≠ u) }

/-- A node executes `TRUNCATE` (server/src/remote.rs:412-438 with `truncate_cluster` false). The result is whether it replies that it succeeded. -/
def State.execute (st : State ν ρ) (u : ν) (names : List String) : State ν ρ × Bool :=
  if (st.node u).phase = .serving then
    (st.setNode u ((st.node u).truncateAll st.known names).1, ((st.node u).truncateAll st.known names).2)
  else (st, false)

/-- A step, `none` if it is not possible. -/
def State.step (st : State ν ρ) : Step ν ρ → Option (State ν ρ)
  -- server/src/data_folders.rs:54-124 and server/src/cluster.rs:64.
  | .start u mode =>
    if (st.node u).phase = .outside then
      some { st.setNode u { st.node u with phase := .saved, mode := mode } with listed := st.listed ++ [(u, mode)] }
    else none
  -- server/src/main.rs:145-162.
  | .serve u => if (st.node u).phase = .saved then some (st.setNode u { st.node u with phase := .serving }) else none
  -- server/src/remote.rs:876-898.
  | .kill u =>
    if (st.node u).phase = .serving then some ((((st.setNode u (st.node u).flush).transferAll u).unlist u).endProcess u) else none
  -- server/src/main.rs:170-188.
  | .stop u => if (st.node u).phase = .serving then some (((st.setNode u (st.node u).flush).unlist u).endProcess u) else none
  | .crash u => some (st.endProcess u)
  -- server/src/remote.rs:473-525.
  | .ingest u table row =>
    if (st.node u).phase = .serving ∧ st.known table then
      some (st.setNode u { st.node u with memory := setRows (st.node u).memory table ((st.node u).memory table ++ [row]) })
    else none
  -- server/src/storage/compressed_data_manager.rs:240-291.
  | .save u table =>
    if (st.node u).phase = .serving then
      some (st.setNode u { st.node u with
        memory := setRows (st.node u).memory table [], disk := setRows (st.node u).disk table ((st.node u).disk table ++ (st.node u).memory table) })
    else none
  -- server/src/storage/data_transfer.rs:224-261.
  | .transfer u table =>
    if (st.node u).phase = .serving then
      some { st.setNode u { st.node u with disk := setRows (st.node u).disk table [] } with
        remote := setRows st.remote table (st.remote table ++ (st.node u).disk table) }
    else none
  -- server/src/remote.rs:863-875.
  | .flushNode u => if (st.node u).phase = .serving then some ((st.setNode u (st.node u).flush).transferAll u) else none
  -- server/src/remote.rs:412-438.
  | .truncate u names => if (st.node u).phase = .serving then some (st.execute u names).1 else none
  -- server/src/remote.rs:419-420.
  | .begin_ i u names =>
    if (st.node u).phase = .serving ∧ st.request i = .idle then some (st.setRequest i (.remote u names names)) else none
  -- server/src/cluster.rs:211-213.
  | .remote i =>
    match st.request i with
    | .remote u names [] => some (st.setRequest i (.peers u names))
    | .remote u names (table :: rest) =>
      if st.known table then some ({ st with remote := setRows st.remote table [] }.setRequest i (.remote u names rest))
      else some (st.setRequest i (.failed u names []))
    | _ => none
  -- `peer_nodes` (server/src/cluster.rs:332-339).
  | .peers i =>
    match st.request i with
    | .peers u names => some (st.setRequest i (.sending u names ((st.listed.map Prod.fst).filter (· ≠ u))))
    | _ => none
  -- `cluster_do_get` (server/src/cluster.rs:254-270), which returns the first error at once.
  | .deliver i u d =>
    match st.request i with
    | .sending v names pending =>
      if u ∈ pending then
        match d with
        | .requestLost => some (st.setRequest i (.failed v names (pending.erase u)))
        | .replyLost => some ((st.execute u names).1.setRequest i (.failed v names (pending.erase u)))
        | .delivered =>
          some ((st.execute u names).1.setRequest i
            (if (st.execute u names).2 then .sending v names (pending.erase u) else .failed v names (pending.erase u)))
      else none
    | .failed v names pending =>
      if u ∈ pending then
        match d with
        | .requestLost => some (st.setRequest i (.failed v names (pending.erase u)))
        | _ => some ((st.execute u names).1.setRequest i (.failed v names (pending.erase u)))
      else none
    | _ => none
  -- server/src/remote.rs:430-435.
  | .finish i =>
    match st.request i with
    | .sending v names [] =>
      some ((st.execute v names).1.setRequest i (if (st.execute v names).2 then .succeeded v names else .failed v names []))
    | _ => none

/-- Several steps. -/
def State.run (st : State ν ρ) : List (Step ν ρ) → Option (State ν ρ)
  | [] => some st
  | s :: rest => (st.step s).bind fun st' => st'.run rest

/-- The cloud nodes in the list of nodes (server/src/cluster.rs:122-126). -/
def State.cloudNodes (st : State ν ρ) : List ν := (st.listed.filter (·.2 = .cloud)).map Prod.fst

/-- `query_node` (server/src/cluster.rs:121-134) for a request of `get_flight_info` (server/src/remote.rs:566-603): a random cloud node, `none` for an
error. -/
def State.queryNode (st : State ν ρ) (random : Nat) : Option ν :=
  if st.cloudNodes.isEmpty then none else st.cloudNodes[random % st.cloudNodes.length]?

/-- The rows that a node uses for queries of a table (server/src/remote.rs:669-678 and `query_data_folder` in server/src/data_folders.rs:61-123), `none`
if the node does not answer. -/
def State.answer (st : State ν ρ) (u : ν) (table : String) : Option (List ρ) :=
  if (st.node u).phase = .serving ∧ st.known table then
    some (match (st.node u).mode with
      | .edge => (st.node u).disk table
      | .cloud => st.remote table)
  else none

end ModelarDB.Model.ClusterData
