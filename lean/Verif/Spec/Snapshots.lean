import Verif.Model.Snapshots
/-
Specification for C95.
-/
namespace ModelarDB.Spec.Snapshots
open Model.Snapshots

variable {ρ : Type}

/-- The clock that is read in a step. -/
def clockOf : Step → Option Int
  | .remove c _ | .checkpoint c | .vacuum c _ => some c
  | _ => none

/-- Clocks differ from the time by at most `skew` milliseconds. -/
def ClocksWithin (content : Nat → List ρ) (skew : Nat) (st : State ρ) (steps : List Step) : Prop :=
  ∀ before s after mid c, steps = before ++ s :: after → st.run content before = some mid → clockOf s = some c →
    (mid.now : Int) - skew ≤ c ∧ c ≤ mid.now + skew

/-- Each VACUUM has a retention period of at least `period` milliseconds. -/
def RetainAtLeast (period : Nat) (steps : List Step) : Prop := ∀ c r, Step.vacuum c r ∈ steps → period ≤ r

end ModelarDB.Spec.Snapshots
