import Verif.Model.EdgeNode
import Verif.Spec.DataTransfer
import Verif.Spec.EndToEnd
import Verif.Spec.Restarts
/-
Specification of where the rows of edge nodes are, for C87.
-/
namespace ModelarDB.Spec.EdgeNode
open Model Model.Storage Model.Restarts Model.EdgeNode Spec.Storage Spec.Restarts Spec.DataTransfer

variable {α : Type}

/-- The steps of the server are those of C79. -/
def NodeAction.ok : NodeAction α → Prop
  | .server action _ _ => Action.ok action
  | .transfer _ => True

/-- A state of a node. -/
structure Reached (name : String) (env : Env α) (n : Node α) : Prop where
  history : ∃ (i u c : Nat) (batchSize : Option Nat) (actions : List (NodeAction α)), (∀ a ∈ actions, NodeAction.ok a) ∧
    (Node.new i u c batchSize).run name env actions = some n

/-- A step that does not interfere with a transfer, as for C26. -/
def CalmAction (name : String) (env : Env α) (n : Node α) : NodeAction α → Prop
  | .server action size disk => ∀ s ∈ n.server.step env action, ∀ op ∈ tableOp name n.server s action size disk, Calm n.table op
  | .transfer op => Calm n.table op

/-- Every step of a history is calm. -/
def CalmActions (name : String) (env : Env α) (n : Node α) : List (NodeAction α) → Prop
  | [] => True
  | a :: actions => CalmAction name env n a ∧ ∀ n' ∈ n.step name env a, CalmActions name env n' actions

instance [DecidableEq α] (name : String) (env : Env α) (n : Node α) (a : NodeAction α) : Decidable (CalmAction name env n a) := by
  cases a <;> unfold CalmAction <;> infer_instance

instance CalmActions.decidable [DecidableEq α] (name : String) (env : Env α) : (n : Node α) → (actions : List (NodeAction α)) →
    Decidable (CalmActions name env n actions)
  | _, [] => isTrue trivial
  | n, a :: actions =>
    match h : n.step name env a with
    | none => decidable_of_iff (CalmAction name env n a) (by simp [CalmActions, h])
    | some n' =>
      have := CalmActions.decidable name env n' actions
      decidable_of_iff (CalmAction name env n a ∧ CalmActions name env n' actions) (by simp [CalmActions, h])

/-- A state of a node that is reached without interference with a transfer. -/
structure CalmlyReached (name : String) (env : Env α) (n : Node α) : Prop where
  history : ∃ (i u c : Nat) (batchSize : Option Nat) (actions : List (NodeAction α)), (∀ a ∈ actions, NodeAction.ok a) ∧
    CalmActions name env (Node.new i u c batchSize) actions ∧ (Node.new i u c batchSize).run name env actions = some n

/-- The rows that are in the local data folder. -/
def localRows (n : Node α) : List (Row α) := (n.table.localFiles.flatMap Prod.fst).flatMap chunkRows

/-- The segments that a node has written to the data folder in the cloud. -/
def transferred (n : Node α) : List (Chunk α) := n.table.remoteFiles.flatten

/-- The rows that a node has written to the data folder in the cloud. -/
def transferredRows (n : Node α) : List (Row α) := (transferred n).flatMap chunkRows

/-- Whether a transfer of the node has written rows to the cloud that it has not deleted from the local data folder. -/
def Deleting (n : Node α) : Prop := ∃ x ∈ n.table.running, inWindow x = true

/-- Everything in the local table has been written to the cloud. -/
def AllTransferred (n : Node α) : Prop := n.table.localFiles = [] ∨ Deleting n

end ModelarDB.Spec.EdgeNode
