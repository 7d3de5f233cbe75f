import Verif.Model.OpenFolders
/-
Specification of which tables exist when several programs use a data folder, for C85. Only what programs did is used. The newest event is the first.
-/
namespace ModelarDB.Spec.OpenFolders
open Model.OpenFolders

variable {σ : Type}

/-- The table with a name: it exists from when it was created until it is dropped, by whichever program. -/
def existing (name : String) : List (Event σ) → Option (Definition σ)
  | [] => none
  | .create _ n d :: older => if n = name then (existing name older).or (some d) else existing name older
  | .drop _ n :: older => if n = name then none else existing name older
  | _ :: older => existing name older

/-- Whether a program has the data folder open. -/
def isOpen (p : Nat) : List (Event σ) → Bool
  | [] => false
  | .start q :: older => if q = p then true else isOpen p older
  | .stop q :: older => if q = p then false else isOpen p older
  | _ :: older => isOpen p older

/-- Whether a program is up to date with a name: no other program tried to create or drop the table since it opened the data folder. -/
def upToDate (p : Nat) (name : String) : List (Event σ) → Bool
  | [] => false
  | .start q :: older => if q = p then true else upToDate p name older
  | .stop q :: older => if q = p then false else upToDate p name older
  | .create q n _ :: older => if n = name ∧ q ≠ p then false else upToDate p name older
  | .drop q n :: older => if n = name ∧ q ≠ p then false else upToDate p name older

/-- What can happen: only programs that have the data folder open use it, and servers are up to date with what they create and drop. -/
def Possible (role : Nat → Role) : List (Event σ) → Prop
  | [] => True
  | .create p n _ :: older => Possible role older ∧ isOpen p older = true ∧ (role p = .server → upToDate p n older = true)
  | .drop p n :: older => Possible role older ∧ isOpen p older = true ∧ (role p = .server → upToDate p n older = true)
  | _ :: older => Possible role older

end ModelarDB.Spec.OpenFolders
