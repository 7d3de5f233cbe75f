import Verif.Model.LoggedServer
import Verif.Spec.Restarts
import Verif.Spec.WriteAheadLog
/-
Specification of what is kept when a server with the files of its write-ahead log is stopped without warning, for C81.
-/
namespace ModelarDB.Spec.LoggedServer
open Model Model.Storage Model.Restarts Model.LoggedServer Spec.Restarts

variable {α : Type}

/-- A crash leaves no file without a schema and no empty folder. -/
def Intact (disk : Wal.Disk (List (Row α))) : Prop := (∀ f ∈ disk, f.schema = true) ∧ disk ≠ []

/-- No segment of the log of the table is fully persisted before an older one when it is opened. -/
def OpensInOrder (n : Node α) (threshold : Nat) (table : String) : Prop :=
  ∀ log disk, (Wal.tryNew threshold (n.logs table).1).result = some (log, disk) → Spec.Wal.Orderly log (n.commits table)

/-- The conditions of what happens: files can be written and the rows that are inserted into a table belong to it, crashes leave no file of the log
without a schema and no empty folder, and no segment of a log is fully persisted before an older one. -/
def Event.ok (n : Node α) : Event α → Prop
  | .append table rows _ => ∀ r ∈ rows, r.table = table
  | .appendCrash table rows size k => (∀ r ∈ rows, r.table = table) ∧
      ∀ log ∈ (n.logs table).2, ∀ disk ∈ (Wal.appendAndSync log (n.logs table).1 rows size).crashes[k]?, Intact disk
  | .server action => Action.ok action
  | .mark table ids => ∀ log ∈ (n.logs table).2, Spec.Wal.Orderly log (log.persisted ++ ids)
  | .markCrash table ids _ => ∀ log ∈ (n.logs table).2, Spec.Wal.Orderly log (log.persisted ++ ids)
  | .restart tables threshold _ _ _ => ∀ table ∈ tables, OpensInOrder n threshold table
  | .restartCrash table threshold k => OpensInOrder n threshold table ∧
      ∀ disk ∈ (Wal.restart threshold (n.logs table).1 (n.commits table)).crashes[k]?, Intact disk
  | _ => True

/-- The conditions hold for each step. -/
def Careful (env : Env α) (n : Node α) : List (Event α) → Prop
  | [] => True
  | e :: events => Event.ok n e ∧ ∀ n', n.step env e = some n' → Careful env n' events

/-- The server is not stopped. -/
def Event.keepsRunning : Event α → Bool
  | .append .. | .server _ | .mark .. | .setThreshold _ => true
  | _ => false

/-- Flush and stop requests. -/
def Event.isRequest : Event α → Bool
  | .server action => Action.isRequest action
  | _ => false

def Event.isRestart : Event α → Bool
  | .restart .. => true
  | _ => false

/-- What happens when the server is started again and a flush or stop is requested. -/
structure Recovery (α : Type) where
  start : Event α
  before : List (Event α)
  request : Event α
  after : List (Event α)

def Recovery.events (r : Recovery α) : List (Event α) := r.start :: r.before ++ r.request :: r.after

/-- The server is not running in the state `stopped`. It is started, replays the batches in the write-ahead log and has been running since. When it was
in the state `requested` a flush or stop was requested, and in the state `n` this request has been answered. -/
def Recovered (env : Env α) (stopped : Node α) (r : Recovery α) (requested n : Node α) : Prop :=
  ∃ n₁ n₃ : Node α, Event.isRestart r.start = true ∧ stopped.step env r.start = some n₁ ∧ n₁.run env r.before = some requested ∧
    requested.server.pending = [] ∧ Event.isRequest r.request = true ∧ requested.step env r.request = some n₃ ∧ n₃.run env r.after = some n ∧
    (∀ e ∈ r.before ++ r.after, Event.keepsRunning e = true) ∧ r.before.countP Event.isRequest < n.server.engine.results.length

end ModelarDB.Spec.LoggedServer
