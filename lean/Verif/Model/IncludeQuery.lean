import Verif.Model.DataTransfer
/-
A query with `INCLUDE` that is executed by several nodes while nodes transfer data to the cloud.

Source: `execute_query_at_addresses_and_union` in crates/modelardb_server/src/remote.rs, with the transfers of each node as in Verif.Model.DataTransfer.

Simplifications:
* One table is modelled. What is returned for a query is the files that the table consists of when a node plans the query, time_series_table.rs:517-525 and
  normal_table.rs:118-128 in crates/modelardb_storage/src/query: files are not changed, and not deleted from disk before the query has read them. How rows are read from
  files is in Verif.Model.ReadTable and Verif.Model.QueryPlan, and what happens to them on the way to the client in Verif.Model.QueryResult.
* The text that is sent to the addresses is the query (C43), and each node answers.
-/
namespace ModelarDB.Model.IncludeQuery
open Model.DataTransfer

/-- A node that executes a query: an edge node, which uses its local data folder, or a cloud node, which uses the remote data folder,
server/src/data_folders.rs:61-123. -/
inductive Source (ν : Type) where
  | edge (u : ν)
  | cloud
deriving DecidableEq, Repr

/-- The tables of the nodes, with what each node has written to the remote data folder, and a query: the nodes that have yet to plan it and the files that
the others return. -/
structure World (ν ρ : Type) where
  node : ν → Table ρ
  todo : List (Source ν)
  result : List ρ

/-- A step. -/
inductive Step (ν ρ : Type) where
  /-- Something happens at a node. -/
  | op (u : ν) (op : Op ρ)
  /-- A client sends a query to the node `receiver` that includes the nodes at `addresses`. -/
  | ask (receiver : Source ν) (addresses : List (Source ν))
  /-- The next node plans the query. -/
  | scan

variable {ν ρ : Type} [DecidableEq ν]

/-- The files that a node uses for a query. `nodes` are the nodes of the cluster. -/
def World.files (nodes : List ν) (w : World ν ρ) : Source ν → List ρ
  | .edge u => (w.node u).localFiles.map Prod.fst
  | .cloud => nodes.flatMap fun u => (w.node u).remoteFiles

/-- One step; `none` if it cannot be taken or is a panic. -/
def World.step (nodes : List ν) (w : World ν ρ) : Step ν ρ → Option (World ν ρ)
  | .op u op => ((w.node u).step op).map fun t => { w with node := fun v => if v = u then t else w.node v }
  -- server/src/remote.rs:679-697: the receiver plans the query first, then the addresses are asked in order, remote.rs:103-113.
  | .ask receiver addresses => if w.todo = [] then some { w with todo := receiver :: addresses, result := [] } else none
  | .scan =>
    match w.todo with
    | [] => none
    | s :: rest => some { w with todo := rest, result := w.result ++ w.files nodes s }

/-- A sequence of steps. -/
def World.run (nodes : List ν) (w : World ν ρ) : List (Step ν ρ) → Option (World ν ρ)
  | [] => some w
  | s :: rest => (w.step nodes s).bind fun w' => w'.run nodes rest

/-- Nodes without data. -/
def World.new (batchSize : ν → Option Nat) : World ν ρ := ⟨fun u => Table.new (batchSize u), [], []⟩

end ModelarDB.Model.IncludeQuery
