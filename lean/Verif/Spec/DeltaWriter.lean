import Verif.Model.DeltaWriter
/-
What a reader of a Delta table sees, for C50.
-/
namespace ModelarDB.Spec.DeltaWriter
open Model.DeltaWriter

variable {ρ : Type}

/-- The rows of an object. -/
def content (objects : List (String × List ρ)) (path : String) : Option (List ρ) := (objects.find? fun o => o.1 = path).map Prod.snd

/-- The rows a reader sees; `none` if an object is missing, so the table cannot be read. -/
def visible (t : Table ρ) : Option (List ρ) := ((t.log.flatMap Prod.fst).mapM (content t.objects)).map List.flatten

/-- The ids that are recorded. -/
def recorded (t : Table ρ) : List Nat := t.log.flatMap Prod.snd

end ModelarDB.Spec.DeltaWriter
