import Verif.Model.Shutdown
/-
What stopping a node should do, for C65.
-/
namespace ModelarDB.Spec
open Model.Shutdown
variable {ρ : Type}

/-- The row is in a data folder or in the write-ahead log. -/
def Kept (n : Node ρ) (r : ρ) : Prop := r ∈ n.disk ∨ r ∈ n.remote ∨ (n.wal = true ∧ r ∈ n.log)

/-- The node ended only because it was asked to, and then it kept all rows it confirmed and left the cluster. After `KillNode` the rows are in the remote
data folder if there is one. -/
def StopsCleanly (n : Node ρ) : Prop :=
  n.ended ≠ some .panic ∧
  (n.ended ≠ none → (∀ r ∈ n.confirmed, Kept n r) ∧ n.member = false) ∧
  (n.ended = some .killed → n.mode.remote = true → ∀ r ∈ n.confirmed, r ∈ n.remote)

/-- Nothing fails to be saved or transferred and the node can be removed from the cluster. -/
def Succeeds : Op ρ → Prop
  | .save failing | .flushMemory failing | .killFlush failing | .interrupt failing => ∀ r, failing r = false
  | .flushNode failing _ ok => (∀ r, failing r = false) ∧ ok = true
  | .killTransfer _ ok | .killRemove ok | .interruptRemove ok | .periodic _ ok => ok = true
  | _ => True

/-- Data points are not ingested after the storage engine was closed. -/
def NotAfterClose (n : Node ρ) : Op ρ → Prop
  | .ingest _ => n.ctrlC = none
  | _ => True

/-- A condition on every step of an execution. -/
def Always (p : Node ρ → Op ρ → Prop) (n : Node ρ) : List (Op ρ) → Prop
  | [] => True
  | op :: ops => p n op ∧ ∀ n', n.step op = some n' → Always p n' ops

end ModelarDB.Spec
