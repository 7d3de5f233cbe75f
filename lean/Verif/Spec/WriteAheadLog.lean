import Verif.Model.WriteAheadLog
/-
Histories of the write-ahead log of a table, for C15 to C19.
-/
namespace ModelarDB.Spec.Wal
open Model.Wal

variable {β : Type}

/-- A batch that has been written with the id it was given; `acked` is whether the write was
acknowledged, i.e. there was no crash before it returned. -/
structure Entry (β : Type) where
  id : Nat
  batch : β
  acked : Bool
deriving DecidableEq

/-- The id and the batch. -/
def Entry.pair (e : Entry β) : Nat × β := (e.id, e.batch)

/-- The log of a table and what has happened to it. `log` is `none` when the server is not running.
`commits` are the ids in the commit history of the Delta table, that is the ids recorded as persisted, and
`saved` are the batches that were actually saved by those commits. `history` are all batches ever written and
`live` are those that have not been truncated. -/
structure World (β : Type) where
  disk : Disk β
  log : Option Log
  commits : List Nat
  saved : List (Entry β)
  live : List (Entry β)
  history : List (Entry β)

/-- A new table. -/
def World.initial : World β := ⟨[], none, [], [], [], []⟩

/-- A batch is stored in a file of the folder under an id. -/
def Stored (d : Disk β) (p : Nat × β) : Prop :=
  ∃ f ∈ d, ∃ k, f.batches[k]? = some p.2 ∧
    match f.name with
    | .active start => p.1 = start + k
    | .closed start _ => p.1 = start + k

/-- Which misfortunes are considered:
* `tornCreate`: crashes after a file was created and before its schema was written,
* `failedSync`: appends that fail after the batch was written,
* `outOfOrder`: a segment is fully persisted before an older one,
* `emptied`: crashes that leave an empty folder behind,
* `crashInAppend`: crashes inside append after the batch was written. -/
structure Config where
  tornCreate : Bool
  failedSync : Bool
  outOfOrder : Bool
  emptied : Bool
  crashInAppend : Bool

/-- The folders that crashes are considered to leave behind. -/
def Config.allows (cfg : Config) (d : Disk β) : Prop :=
  (cfg.tornCreate = true ∨ ∀ f ∈ d, f.schema = true) ∧ (cfg.emptied = true ∨ d ≠ [])

/-- No segment is fully persisted before an older one. -/
def Orderly (log : Log) (persisted : List Nat) : Prop :=
  ∀ s ∈ log.closed, ∀ t ∈ log.closed, s.1 < t.1 → isFullyPersisted persisted t = true → isFullyPersisted persisted s = true

/-- What happens in a step. -/
inductive Op where
  | append | appendCrash | appendFails | commit | mark | markCrash | truncate | truncateCrash | crash | restart
  | restartCrash | setThreshold
deriving DecidableEq

open Classical in
/-- One step of a history. -/
inductive Step (cfg : Config) : Op → World β → World β → Prop
  | append {w : World β} {log log' : Log} {d' : Disk β} {id : Nat} (batch : β) (size : Nat) (hlog : w.log = some log)
      (h : (appendAndSync log w.disk batch size).result = some ((id, log'), d')) :
      Step cfg .append w { w with
        disk := d', log := some log', live := w.live ++ [⟨id, batch, true⟩], history := w.history ++ [⟨id, batch, true⟩] }
  | appendCrash {w : World β} {log : Log} {d' : Disk β} (batch : β) (size : Nat) (hlog : w.log = some log)
      (h : d' ∈ (appendAndSync log w.disk batch size).crashes) (hcfg : cfg.allows d') (hcfg' : cfg.crashInAppend = true) :
      Step cfg .appendCrash w { w with
        disk := d', log := none, live := w.live ++ [⟨log.nextBatchId, batch, false⟩],
        history := w.history ++ [⟨log.nextBatchId, batch, false⟩] }
  | appendFails {w : World β} {log : Log} {d' : Disk β} (batch : β) (hlog : w.log = some log)
      (h : writeBatch log w.disk batch = some d') (hcfg : cfg.failedSync = true) :
      Step cfg .appendFails w { w with disk := d' }
  | commit {w : World β} (es : List (Entry β)) (hes : ∀ e ∈ es, e ∈ w.history) :
      Step cfg .commit w { w with commits := w.commits ++ es.map Entry.id, saved := w.saved ++ es }
  | mark {w : World β} {log log' : Log} {d' : Disk β} (ids : List Nat) (hlog : w.log = some log)
      (hids : ∀ i ∈ ids, i ∈ w.commits) (hcfg : cfg.outOfOrder = true ∨ Orderly log (log.persisted ++ ids))
      (h : (markBatchesAsPersisted log w.disk ids).result = some (log', d')) :
      Step cfg .mark w { w with disk := d', log := some log' }
  | markCrash {w : World β} {log : Log} {d' : Disk β} (ids : List Nat) (hlog : w.log = some log)
      (hids : ∀ i ∈ ids, i ∈ w.commits) (hcfg : cfg.outOfOrder = true ∨ Orderly log (log.persisted ++ ids))
      (h : d' ∈ (markBatchesAsPersisted log w.disk ids).crashes) :
      Step cfg .markCrash w { w with disk := d', log := none }
  | truncate {w : World β} {log log' : Log} {d' : Disk β} (hlog : w.log = some log)
      (h : (truncate log w.disk).result = some (log', d')) :
      Step cfg .truncate w { w with disk := d', log := some log', live := [] }
  | truncateCrash {w : World β} {log : Log} {d' : Disk β} (hlog : w.log = some log)
      (h : d' ∈ (Model.Wal.truncate log w.disk).crashes) (hcfg : cfg.allows d') :
      Step cfg .truncateCrash w { w with disk := d', log := none, live := w.live.filter fun e => Stored d' e.pair }
  | crash {w : World β} : Step cfg .crash w { w with log := none }
  | restart {w : World β} {log' : Log} {d' : Disk β} (threshold : Nat) (hlog : w.log = none)
      (hcfg : cfg.outOfOrder = true ∨ ∀ log d, (tryNew threshold w.disk).result = some (log, d) → Orderly log w.commits)
      (h : (restart threshold w.disk w.commits).result = some (log', d')) :
      Step cfg .restart w { w with disk := d', log := some log' }
  | restartCrash {w : World β} {d' : Disk β} (threshold : Nat) (hlog : w.log = none)
      (hcfg : cfg.outOfOrder = true ∨ ∀ log d, (tryNew threshold w.disk).result = some (log, d) → Orderly log w.commits)
      (h : d' ∈ (restart threshold w.disk w.commits).crashes) (hcfg' : cfg.allows d') :
      Step cfg .restartCrash w { w with disk := d' }
  | setThreshold {w : World β} {log : Log} (threshold : Nat) (hlog : w.log = some log) :
      Step cfg .setThreshold w { w with log := some { log with threshold := threshold } }

/-- Sequences of steps. -/
inductive Steps (cfg : Config) : List Op → World β → World β → Prop
  | refl (w : World β) : Steps cfg [] w w
  | tail {ops : List Op} {op : Op} {w₁ w₂ w₃ : World β} (h : Steps cfg ops w₁ w₂) (hs : Step cfg op w₂ w₃) :
      Steps cfg (ops ++ [op]) w₁ w₃

/-- What can happen to a new table. -/
def Reachable (cfg : Config) (w : World β) : Prop := ∃ ops, Steps cfg ops .initial w

/-- The batches that are returned for replay after a restart; `none` if the log cannot be opened or
read. -/
def replay (threshold : Nat) (w : World β) : Option (List (Nat × β)) :=
  match (restart threshold w.disk w.commits).result with
  | none => none
  | some (log, d) => unpersistedBatches log d

end ModelarDB.Spec.Wal
