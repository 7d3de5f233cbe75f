import Mathlib.Data.List.Basic
/-
The addresses of the nodes of a cluster: the URL that a node saves in the list of nodes, the port that it listens on, and which nodes execute a statement for the
whole cluster (crates/modelardb_server/src/main.rs, crates/modelardb_server/src/data_folders.rs, crates/modelardb_server/src/cluster.rs,
crates/modelardb_server/src/remote.rs and crates/modelardb_storage/src/data_folder/cluster.rs).

Simplifications:
* All nodes have the same key (C47) and execute what they receive, and a statement is executed at one moment. How tables and rows change when statements interleave and fail
  is in Verif.Model.Cluster and Verif.Model.ClusterData, in which nodes are identified by their URLs.
* Reading and changing the list of nodes is atomic and does not fail.
-/
namespace ModelarDB.Model.Addresses

/-- A node as it is started: the machine it runs on and the arguments `--host` and `--port` (server/src/main.rs:55-62). -/
structure Member where
  machine : Nat
  host : List Char
  port : Nat
deriving DecidableEq, Repr

/-- The URL of a node (server/src/data_folders.rs:59). -/
def Member.url (m : Member) : List Char := ['g', 'r', 'p', 'c', ':', '/', '/'] ++ (m.host ++ ':' :: Nat.toDigits 10 m.port)

/-- How far a node is with starting. -/
inductive Phase where
  | outside
  /-- The node is in the list of nodes (server/src/cluster.rs:64), but does not listen. -/
  | saved
  /-- The node listens (server/src/remote.rs:66-86). -/
  | serving
deriving DecidableEq, Repr

/-- The column `url` of the metadata table `nodes` and the nodes. -/
structure State where
  rows : List (List Char)
  phase : Nat → Phase

/-- A step of a node. -/
inductive Step where
  /-- The node is saved in the list of nodes. -/
  | start (n : Nat)
  /-- The node listens on its port, which fails if another node listens on the same port of the same machine. -/
  | serve (n : Nat)
  /-- CTRL+C or the action KillNode: the node removes its URL from the list of nodes (server/src/main.rs:170-188 and server/src/remote.rs:876-898). -/
  | leave (n : Nat)
  /-- The process ends in another way, e.g. since it cannot listen on its port. -/
  | crash (n : Nat)
deriving DecidableEq, Repr

/-- Set the phase of a node. -/
def setPhase (phase : Nat → Phase) (n : Nat) (p : Phase) : Nat → Phase := fun k => if k = n then p else phase k

/-- A node listens on a port of a machine. The servers listen on all addresses of their machine, 0.0.0.0, whatever `--host` is (server/src/remote.rs:67). -/
def listens (member : Nat → Member) (st : State) (machine port n : Nat) : Bool :=
  st.phase n = .serving && (member n).machine = machine && (member n).port = port

/-- A step, `none` if it cannot be taken. `nodes` are the nodes and `member` how they are started. -/
def step (nodes : List Nat) (member : Nat → Member) (st : State) : Step → Option State
  -- server/src/main.rs:142-143: `save_node`, storage/src/data_folder/cluster.rs:105-116, adds a row.
  | .start n => if n ∈ nodes ∧ st.phase n = .outside then some ⟨st.rows ++ [(member n).url], setPhase st.phase n .saved⟩ else none
  | .serve n =>
    if st.phase n = .saved ∧ nodes.all (fun k => !listens member st (member n).machine (member n).port k) then
      some ⟨st.rows, setPhase st.phase n .serving⟩ else none
  -- `remove_node`, storage/src/data_folder/cluster.rs:121-130, removes all rows with the URL.
  | .leave n => if st.phase n = .outside then none else some ⟨st.rows.filter (· ≠ (member n).url), setPhase st.phase n .outside⟩
  | .crash n => some ⟨st.rows, setPhase st.phase n .outside⟩

/-- Several steps. -/
def run (nodes : List Nat) (member : Nat → Member) (st : State) : List Step → Option State
  | [] => some st
  | s :: rest => (step nodes member st s).bind fun st' => run nodes member st' rest

/-- No nodes. -/
def State.empty : State := ⟨[], fun _ => .outside⟩

/-- The node that receives a request that is sent from a machine to a URL (server/src/cluster.rs:276 and 316). `route` is the network: the machine and port that a URL stands for at
a machine. -/
def receiver (nodes : List Nat) (member : Nat → Member) (route : Nat → List Char → Option (Nat × Nat)) (st : State) (machine : Nat) (url : List Char) : Option Nat :=
  (route machine url).bind fun (m, p) => nodes.find? (listens member st m p)

/-- `peer_nodes` (server/src/cluster.rs:332-339): all rows except those with the URL of the node. -/
def peers (member : Nat → Member) (st : State) (n : Nat) : List (List Char) := st.rows.filter (· ≠ (member n).url)

/-- All of the requests, `none` if one of them fails. -/
def receivers (f : List Char → Option Nat) : List (List Char) → Option (List Nat)
  | [] => some []
  | url :: rest => (f url).bind fun n => (receivers f rest).map (n :: ·)

/-- The nodes that execute a statement for the whole cluster that is sent to the node `n`, `none` if the client gets an error: `cluster_do_get` and `cluster_do_action`
(server/src/cluster.rs:254-270 and 293-310), and then the node itself (server/src/remote.rs:412-438). -/
def execute (nodes : List Nat) (member : Nat → Member) (route : Nat → List Char → Option (Nat × Nat)) (st : State) (n : Nat) : Option (List Nat) :=
  (receivers (receiver nodes member route st (member n).machine) (peers member st n)).map (· ++ [n])

end ModelarDB.Model.Addresses
