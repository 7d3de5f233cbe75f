import Verif.Model.Cluster
/-
Specification of what nodes of a cluster agree on, independent of how the cluster changes.
-/
namespace ModelarDB.Spec.Cluster
open Model.Cluster

variable {δ ν : Type}

/-- No cluster yet. -/
def empty (ν : Type) : Members ν := { keys := [], rows := [], node := fun _ => .outside }

/-- The node takes part in the cluster. -/
def Inside (m : Members ν) (n : Nat) : Prop := m.node n ≠ .outside

/-- Two sets of tables have the same tables with the same definitions. -/
def SameTables (t s : Tables δ) : Prop := ∀ name, t.lookup name = s.lookup name

/-- The tables `t'` are the tables `t` after a change, and no other table changed. -/
def After (t : Tables δ) : Change δ → Tables δ → Prop
  | .create name d, t' => ∀ n, t'.lookup n = if n = name then some d else t.lookup n
  | .drop names, t' => ∀ n, t'.lookup n = if n ∈ names then none else t.lookup n

/-- The change is of at least one table. -/
def NotEmpty : Change δ → Prop
  | .create .. => True
  | .drop names => names ≠ []

/-- A node that has retrieved its tables and has not stopped. -/
def Active (st : State ν δ) (u : ν) : Prop := (st.node u).phase = .loaded ∨ (st.node u).phase = .serving

/-- All active nodes have the tables in the remote data folder, and the other nodes can find all nodes that have started to join. -/
structure Agrees (st : State ν δ) : Prop where
  tables : ∀ u, Active st u → SameTables (st.node u).tables st.remote
  listed : ∀ u, (st.node u).phase ≠ .outside → u ∈ st.rows

/-- No request is in progress or left a part of its effects. -/
def Quiet (st : State ν δ) : Prop := ∀ i, st.request i = .idle ∨ ∃ u c, st.request i = .succeeded u c

/-- The step is not the start of a request. -/
def NoRequest : Step ν δ → Prop
  | .begin_ .. => False
  | _ => True

/-- A data folder in which no creation or drop of a table was interrupted: each table is either a normal table or a time series table, and the
Delta tables are those of the tables. -/
structure WellFormed {μ σ : Type} (compressed : μ → σ) (f : Folder μ σ) : Prop where
  nodup : f.names.Nodup
  delta : ∀ name, (f.delta.lookup name).isSome = true ↔ name ∈ f.names
  series : ∀ name m, f.series.lookup name = some m → f.delta.lookup name = some (compressed m)

/-- The definition of a table: the schema of a normal table or the metadata of a time series table. -/
inductive Definition (μ σ : Type) where
  | normal (schema : σ)
  | series (metadata : μ)
deriving DecidableEq

/-- A table has a definition. -/
def Defines {μ σ : Type} (f : Folder μ σ) (name : String) : Definition μ σ → Prop
  | .normal schema => name ∈ f.normal ∧ f.delta.lookup name = some schema
  | .series metadata => f.series.lookup name = some metadata

end ModelarDB.Spec.Cluster
