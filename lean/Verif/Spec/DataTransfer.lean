import Verif.Model.DataTransfer
/-
Where the files of a table are, for C26 and C27.
-/
namespace ModelarDB.Spec.DataTransfer
open Model.DataTransfer

variable {ρ : Type}

/-- All copies of files. -/
def copies (t : Table ρ) : List ρ := t.localFiles.map Prod.fst ++ t.remoteFiles ++ t.discarded

/-- The sizes of the files in the local table. -/
def localBytes (t : Table ρ) : Nat := (t.localFiles.map Prod.snd).sum

/-- Whether rows are written to the remote table by a transfer and not deleted from the local table. -/
def inWindow (t : Transfer ρ) : Bool :=
  match t.stage with
  | .written _ => true
  | _ => false

/-- A step that does not interfere with a transfer of the table: nothing is committed or reported while a transfer runs, transfers do not
overlap, the size of a file is reported before the next file is committed, and the server does not stop and no step fails
between the remote write and the local deletion. The table has less than 2^64 bytes. -/
def Calm (t : Table ρ) : Op ρ → Prop
  | .commit _ size => t.running = [] ∧ t.unreported = [] ∧ localBytes t + size < 2 ^ 64
  | .report _ => t.running = []
  | .request _ => t.running = [] ∧ t.unreported = []
  | .advance i ok => ∀ x ∈ t.running[i]?, inWindow x = true → ok = true
  | .mark => True
  | .discard => t.unreported = []
  | .setBatchSize _ => True
  | .restart disk => (∀ x ∈ t.running, inWindow x = false) ∧ (t.localFiles.map fun f => disk f.1).sum < 2 ^ 64

/-- Every step of a history is calm. -/
def CalmRun (t : Table ρ) : List (Op ρ) → Prop
  | [] => True
  | op :: ops => Calm t op ∧ ∀ t' ∈ t.step op, CalmRun t' ops

instance [DecidableEq ρ] (t : Table ρ) (op : Op ρ) : Decidable (Calm t op) := by
  cases op <;> unfold Calm <;> infer_instance

instance CalmRun.decidable [DecidableEq ρ] : (t : Table ρ) → (ops : List (Op ρ)) → Decidable (CalmRun t ops)
  | _, [] => isTrue trivial
  | t, op :: ops =>
    match h : t.step op with
    | none => decidable_of_iff (Calm t op) (by simp [CalmRun, h])
    | some t' =>
      have := CalmRun.decidable t' ops
      decidable_of_iff (Calm t op ∧ CalmRun t' ops) (by simp [CalmRun, h])

end ModelarDB.Spec.DataTransfer
