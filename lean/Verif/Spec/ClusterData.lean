import Verif.Model.ClusterData
/-
What users of a cluster rely on: deleted rows are gone everywhere and stay gone, other rows are kept, and a client that asks where to execute a query is
sent to a node that answers it from the rows of all nodes.
-/
namespace ModelarDB.Spec.ClusterData
open ModelarDB.Model.ClusterData

variable {ν ρ : Type} [DecidableEq ν]

/-- A node does not have the row. -/
def Free (n : Node ρ) (table : String) (row : ρ) : Prop := row ∉ n.memory table ∧ row ∉ n.disk table

/-- No node and no data folder has the row. -/
def Nowhere (st : State ν ρ) (table : String) (row : ρ) : Prop := row ∉ st.remote table ∧ ∀ u, Free (st.node u) table row

/-- The row is in one place only, in the memory or local data folder of the node `u` or in the remote data folder. -/
def Once [BEq ρ] (st : State ν ρ) (u : ν) (table : String) (row : ρ) : Prop :=
  ((st.node u).memory table).count row + ((st.node u).disk table).count row + (st.remote table).count row = 1 ∧
    ∀ v, v ≠ u → Free (st.node v) table row

/-- The row is ingested. -/
def Ingests (table : String) (row : ρ) : Step ν ρ → Prop
  | .ingest _ t r => t = table ∧ r = row
  | _ => False

/-- Rows of the table are transferred to the remote data folder. -/
def Moves (table : String) : Step ν ρ → Prop
  | .transfer _ t => t = table
  | .flushNode _ => True
  | .kill _ => True
  | _ => False

/-- A node leaves the cluster. -/
def Leaves : Step ν ρ → Prop
  | .kill _ => True
  | .stop _ => True
  | _ => False

/-- A client asks to delete the rows of the table. -/
def Truncates (table : String) : Step ν ρ → Prop
  | .truncate _ names => table ∈ names
  | .begin_ _ _ names => table ∈ names
  | _ => False

/-- The process of the node ends. -/
def Ends (u : ν) : Step ν ρ → Prop
  | .kill v => v = u
  | .stop v => v = u
  | .crash v => v = u
  | _ => False

/-- The request may still delete rows of the table. -/
def Pending (table : String) : Request ν → Prop
  | .remote _ names todo => table ∈ names ∨ table ∈ todo
  | .peers _ names => table ∈ names
  | .sending _ names _ => table ∈ names
  | .failed _ names pending => table ∈ names ∧ pending ≠ []
  | _ => False

/-- No request is deleting rows of the table. -/
def Quiet (st : State ν ρ) (table : String) : Prop := ∀ i, ¬ Pending table (st.request i)

/-- A cluster without nodes and rows. -/
def Initial (st : State ν ρ) : Prop :=
  st.remote = (fun _ => []) ∧ st.listed = [] ∧ (∀ i, st.request i = .idle) ∧
    ∀ u, (st.node u).phase = .outside ∧ (st.node u).memory = (fun _ => []) ∧ (st.node u).disk = fun _ => []

/-- Nodes that are started as cloud nodes do not crash. -/
def CloudNodesStop (steps : List (Step ν ρ)) : Prop := ∀ u, .start u .cloud ∈ steps → .crash u ∉ steps

end ModelarDB.Spec.ClusterData
