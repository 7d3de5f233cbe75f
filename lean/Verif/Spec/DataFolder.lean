import Verif.Model.DataFolder
import Verif.Spec.TableDefinition
import Verif.Spec.TableNames
/-
What is expected of the tables in a data folder.
-/
namespace ModelarDB.Spec
open Model Model.TableDefinition Model.DataFolder

variable {ε : Type}

/-- A request that is executed without a crash. -/
inductive FolderOp (ε : Type) where
  | createNormal (table : String)
  | create (m : Metadata ε)
  | drop (table : String)

/-- The changes a request makes. -/
def FolderOp.effects (d : Disk ε) : FolderOp ε → Option (List (Effect ε))
  | .createNormal t => createNormalTable d t
  | .create m => createTimeSeriesTable d m
  | .drop t => dropTable d t

/-- The disk after requests; `none` if one of them is refused. -/
def folderRun (d : Disk ε) : List (FolderOp ε) → Option (Disk ε)
  | [] => some d
  | op :: ops => (op.effects d).bind fun es => folderRun (d.applyAll es) ops

/-- An empty data folder. -/
def emptyFolder : Disk ε := ⟨[], [], [], []⟩

/-- The time series tables that exist after requests. -/
def tablesAfter (ts : List (Metadata ε)) : List (FolderOp ε) → List (Metadata ε)
  | [] => ts
  | .createNormal _ :: ops => tablesAfter ts ops
  | .create m :: ops => tablesAfter (ts ++ [m]) ops
  | .drop t :: ops => tablesAfter (ts.filter (·.name ≠ t)) ops

/-- The normal tables that exist after requests. -/
def normalTablesAfter (ts : List String) : List (FolderOp ε) → List String
  | [] => ts
  | .createNormal t :: ops => normalTablesAfter (ts ++ [t]) ops
  | .create _ :: ops => normalTablesAfter ts ops
  | .drop t :: ops => normalTablesAfter (ts.filter (· ≠ t)) ops

/-- The time series tables that are created. -/
def created : List (FolderOp ε) → List (Metadata ε)
  | [] => []
  | .create m :: ops => m :: created ops
  | _ :: ops => created ops

/-- The normal tables that are created. -/
def createdNormal : List (FolderOp ε) → List String
  | [] => []
  | .createNormal t :: ops => t :: createdNormal ops
  | _ :: ops => createdNormal ops

/-- A definition that can be saved: columns have different names, error bounds are meaningful and only field columns have them, only
field columns are generated, from existing columns, there is no quote in the name of the table, and the name stands for itself. -/
structure Storable (env : Env ε) (m : Metadata ε) : Prop where
  accepted : ∃ bounds, tryNew m.name m.querySchema bounds m.generated = .ok m
  names : (m.querySchema.map (·.name)).Nodup
  noQuote : '\'' ∉ m.name.toList
  selfName : SelfName m.name.toList
  meaningful : ∀ b ∈ m.errorBounds, Meaningful b
  onlyFields : ∀ (j : Nat) (c : Column), m.schema[j]? = some c → c.type ≠ .value → m.errorBounds[j]? = some .lossless
  generatedFields : ∀ (i : Nat) (g : Generated ε), m.generated[i]? = some (some g) →
    (∃ c, m.querySchema[i]? = some c ∧ c.type = .value) ∧ tryFromExpr env m.querySchema g.expr = .ok g

/-- The bounds with those after the first columns replaced. -/
def boundsUpTo (n : Nat) (bs : List ErrorBound) : List ErrorBound := bs.take n ++ List.replicate (bs.length - n) .lossless

/-- The generated columns with those after the first columns removed. -/
def generatedUpTo (n : Nat) (gs : List (Option (Generated ε))) : List (Option (Generated ε)) :=
  gs.take n ++ List.replicate (gs.length - n) none

end ModelarDB.Spec
