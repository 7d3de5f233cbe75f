import Verif.Model.TableNames
/-
Specification of tables that are found by their names, for C62.
-/
namespace ModelarDB.Spec
open Model.TableNames

/-- A name that stands for itself. -/
def SelfName (name : List Char) : Prop := tableRef name = bare name

/-- All tables can be used under their names and can be listed, and the folder can be opened again with the same result. -/
structure Named (f : Folder) : Prop where
  found : ∀ name ∈ f.disk, f.find name = some name
  listed : f.canList = true
  opened : ∃ f', openFolder f.disk = some f' ∧ ∀ name, f'.find name = f.find name

/-- What a request does: it creates or drops the table it names and no other, or it fails and nothing changes. -/
def Does (f : Folder) (op : NameOp) (result : Folder × Bool) : Prop :=
  match result.2, op with
  | false, _ => result.1 = f
  | true, .create name => name ∉ f.disk ∧ (∀ n, n ∈ result.1.disk ↔ n ∈ f.disk ∨ n = name) ∧ result.1.find name = some name ∧
      ∀ n, n ≠ name → SelfName n → result.1.find n = f.find n
  | true, .drop name => name ∈ f.disk ∧ (∀ n, n ∈ result.1.disk ↔ n ∈ f.disk ∧ n ≠ name) ∧ result.1.find name = none ∧
      ∀ n, n ≠ name → SelfName n → result.1.find n = f.find n

/-- The name in a request. -/
def nameIn : NameOp → List Char
  | .create name => name
  | .drop name => name

/-- A data folder without tables. -/
def emptyNames : Folder := ⟨[], metadataRefs.map (·, none)⟩

end ModelarDB.Spec
