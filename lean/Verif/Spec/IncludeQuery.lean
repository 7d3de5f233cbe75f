import Verif.Model.IncludeQuery
import Verif.Spec.DataTransfer
/-
What happens at one node, for C93.
-/
namespace ModelarDB.Spec.IncludeQuery
open Model.DataTransfer Model.IncludeQuery

variable {ν ρ : Type} [DecidableEq ν]

/-- What happens at one node. -/
def at_ (u : ν) : List (Step ν ρ) → List (Op ρ)
  | [] => []
  | .op v op :: rest => if v = u then op :: at_ u rest else at_ u rest
  | _ :: rest => at_ u rest

/-- The files that are saved by one node. -/
def saved : List (Op ρ) → List ρ
  | [] => []
  | .commit f _ :: rest => f :: saved rest
  | _ :: rest => saved rest

/-- Nothing is deleted because the table is dropped or truncated. -/
def Keeps (ops : List (Op ρ)) : Prop := ∀ op ∈ ops, op ≠ .discard

/-- No step of a transfer is made. -/
def Waits (ops : List (Op ρ)) : Prop := ∀ i ok, .advance i ok ∉ ops

/-- No transfer is between writing rows to the remote data folder and deleting them. -/
def NoWindow (t : Table ρ) : Prop := ∀ x ∈ t.running, Spec.DataTransfer.inWindow x = false

/-- Only queries that were begun before: no further query is sent. -/
def NoAsk (steps : List (Step ν ρ)) : Prop := ∀ r a, .ask r a ∉ steps

end ModelarDB.Spec.IncludeQuery
