/-
Ranges of machine integers.
-/
namespace ModelarDB.Spec

/-- The values of an `i64`. -/
def IsI64 (x : Int) : Prop := -2 ^ 63 ≤ x ∧ x < 2 ^ 63

instance (x : Int) : Decidable (IsI64 x) := inferInstanceAs (Decidable (_ ∧ _))

/-- Strictly increasing lists. -/
def StrictlyIncreasing (ts : List Int) : Prop := ts.Pairwise (· < ·)

instance (ts : List Int) : Decidable (StrictlyIncreasing ts) :=
  inferInstanceAs (Decidable (ts.Pairwise (· < ·)))

/-- Non-decreasing lists. -/
def NonDecreasing (ts : List Int) : Prop := ts.Pairwise (· ≤ ·)

instance (ts : List Int) : Decidable (NonDecreasing ts) :=
  inferInstanceAs (Decidable (ts.Pairwise (· ≤ ·)))

end ModelarDB.Spec
