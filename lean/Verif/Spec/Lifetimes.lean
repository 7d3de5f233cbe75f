import Verif.Model.Lifetimes
/-
Specification of requests that use a table at the same time, for C78.
-/
namespace ModelarDB.Spec.Lifetimes
open Model.Lifetimes

/-- A request only writes rows. -/
def Phase.Writes : Phase → Prop
  | .put _ => True
  | _ => False

/-- No request to create, drop or truncate the table is processed. -/
def Unchanging (s : Server) : Prop := ∀ id phase, s.requests id = some phase → Phase.Writes phase

/-- The conditions for the next operation: a request to create, drop or truncate the table starts when no other such request is processed, and
rows are sent to the table that is registered. -/
def Allowed (s : Server) : Op → Prop
  | .start _ .put => True
  | .start _ _ => Unchanging s
  | .batch id _ => ∀ table, s.requests id = some (.put table) → s.registered = some table
  | _ => True

/-- All operations meet the conditions. -/
def Orderly (env : Env) : Server → List Op → Prop
  | _, [] => True
  | s, op :: ops => Allowed s op ∧ ∀ s', s.step env op = some s' → Orderly env s' ops

/-- A row is saved in the table with the name. -/
def OnDisk (s : Server) (r : Row) : Prop := ∃ table rows, s.disk = some (table, rows) ∧ r ∈ rows

/-- A row is saved in the table it was sent to. -/
def OnDiskOf (s : Server) (r : Row) : Prop := ∃ rows, s.disk = some (r.table, rows) ∧ r ∈ rows

/-- An operation that starts to drop or truncate the table. -/
def Op.Removes : Op → Prop
  | .start _ .drop => True
  | .start _ .truncate => True
  | _ => False

/-- A request removes rows. -/
def Phase.Removes : Phase → Prop
  | .dropDeregister | .dropFlush | .dropLog | .dropDelete | .truncateFlush | .truncateLog | .truncateDelete => True
  | _ => False

/-- No request to drop or truncate the table is processed. -/
def NotRemoving (s : Server) : Prop := ∀ id phase, s.requests id = some phase → ¬ Phase.Removes phase

/-- Rows are only sent when no request to drop or truncate the table is processed. -/
def SentWhenNotRemoving (env : Env) : Server → List Op → Prop
  | _, [] => True
  | s, op :: ops => ((∃ id rows, op = .batch id rows) → NotRemoving s) ∧ ∀ s', s.step env op = some s' → SentWhenNotRemoving env s' ops

/-- A row is in memory or saved in the table it was sent to. -/
def Held (s : Server) (r : Row) : Prop := r ∈ s.memory ∨ OnDiskOf s r

/-- A row is in the table log, so it is read if the server is restarted. -/
def Logged (s : Server) (r : Row) : Prop := ∃ log, s.log = some log ∧ r ∈ log

/-- A row was received after the rows in `earlier`. -/
def ReceivedAfter (earlier : List Row) (s : Server) (r : Row) : Prop := ∃ later, s.received = earlier ++ later ∧ r ∈ later

end ModelarDB.Spec.Lifetimes
