import Verif.Model.Restarts
import Verif.Spec.Storage
/-
Specification of what is kept when the server is stopped without warning, for C79.
-/
namespace ModelarDB.Spec.Restarts
open Model.Storage Model.Restarts Spec.Storage

variable {α : Type}

/-- The rows in the tables. -/
def inTables (s : Server α) : List (Row α) := s.allSaved.flatMap chunkRows

/-- The rows in batches. -/
def rowsIn (batches : List (Batch α)) : List (Row α) := batches.flatMap fun b => b.2.2

/-- Files can be written and the rows that are inserted into a table belong to it. -/
def Action.ok : Action α → Prop
  | .engine op => Op.ioOk op
  | .append table _ rows => ∀ r ∈ rows, r.table = table
  | _ => True

def Action.isRestart : Action α → Bool
  | .restart .. => true
  | _ => false

/-- Flush and stop requests. -/
def Action.isRequest : Action α → Bool
  | .engine op => Op.isRequest op
  | _ => false

/-- The server is stopped without warning in the state `crashed`, is started again and replays the batches in the write-ahead log. It has been
running since. When it was in the state `requested` a flush or stop was requested, and in the state `s` this request has been answered. -/
def Recovered (env : Env α) (crashed requested s : Server α) : Prop :=
  ∃ (tables : List String) (i u c : Nat) (s₁ s₃ : Server α) (before after : List (Action α)) (request : Action α),
    crashed.step env (.restart tables i u c) = some s₁ ∧ s₁.run env before = some requested ∧ requested.pending = [] ∧
    Action.isRequest request ∧ requested.step env request = some s₃ ∧ s₃.run env after = some s ∧
    (∀ a ∈ before ++ after, Action.ok a ∧ Action.isRestart a = false) ∧ before.countP Action.isRequest < s.engine.results.length

end ModelarDB.Spec.Restarts
