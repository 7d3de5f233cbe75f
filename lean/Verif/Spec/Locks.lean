import Verif.Model.Locks
/-
Specification of tasks that do not wait for each other forever.
-/
namespace ModelarDB.Spec.Locks
open Model.Locks

variable {n : Nat} {L : Type} [DecidableEq L]

/-- The task has finished or was dropped. -/
def Finished (st : State n L) (t : Fin n) : Prop := (st.task t).rest = []

/-- The step is made by the server and not by a client that closes its connection. -/
def ByServer : Step n → Prop
  | .abandon _ => False
  | _ => True

/-- The step does not drop a task in `s`. -/
def Keeps (s : Fin n → Prop) : Step n → Prop
  | .abandon t => ¬ s t
  | _ => True

/-- Nothing is left that the server can do. -/
def Halted (st : State n L) : Prop := ∀ s, ByServer s → step st s = none

/-- All tasks finish in whatever order they make steps: no execution goes on forever, and one that ends has finished all tasks. -/
def AllFinish (st : State n L) : Prop :=
  (∃ bound, ∀ steps st', run st steps = some st' → steps.length ≤ bound) ∧
    ∀ steps st', run st steps = some st' → Halted st' → ∀ t, Finished st' t

/-- The tasks in `s` never finish unless one of them is dropped, whatever the other tasks do. -/
def NeverFinish (st : State n L) (s : Fin n → Prop) : Prop :=
  ∀ steps st', (∀ x ∈ steps, Keeps s x) → run st steps = some st' → ∀ t, s t → ¬ Finished st' t

/-- No lock is held for writing by a task while another task holds it. -/
def Exclusive (st : State n L) : Prop :=
  ∀ t u l m, t ≠ u → (l, Mode.write) ∈ (st.task t).held → (l, m) ∉ (st.task u).held

/-- The request changes the configuration. -/
def Updates : Request → Prop
  | .updateMemory _ | .updateTransfer | .updateSegmentSize => True
  | _ => False

/-- The request does not take the lock of the configuration while it holds it or the lock of the storage engine: it is not for a time series
table, and does not remove a node with a remote data folder. -/
def Plain (c : Cluster) (u : Nat) : Request → Prop
  | .create kind => kind = .normal
  | .drop tables => ∀ t ∈ tables, t.1 = .normal
  | .truncate tables _ => ∀ t ∈ tables, t.1 = .normal
  | .killNode _ => c.remote u = false
  | _ => True

/-- The request is not sent to other nodes. -/
def Local (c : Cluster) (u : Nat) : Request → Prop
  | .create _ | .drop _ => c.peers u = []
  | .truncate _ cluster => cluster = true → c.peers u = []
  | .vacuum _ cluster => cluster = true → c.peers u = []
  | _ => True

end ModelarDB.Spec.Locks
