import Verif.Spec.LinearExtrema
import Verif.Spec.Faithful
/-
Specification of aggregates of values that are stored with an error bound, for C84.
-/
namespace ModelarDB.Spec
open Model

/-- The points of the series that were ingested: for each the timestamps and the bits of the values. -/
abbrev Series := List Int × List Nat

/-- All ingested values. -/
def ingestedValues (series : List Series) : List FVal := (series.flatMap Prod.snd).map FVal.ofBits32

/-- How far a stored value may be from the ingested value `q`. The factor is that of the rounding when the error bound is checked. -/
def deviationOf (eb : ErrorBound) (q : ℚ) : ℚ := allowed eb q * (1 + 1 / 2 ^ 22)

/-- The sum of these deviations. -/
def totalDeviation (eb : ErrorBound) (xs : List FVal) : ℚ := (xs.map fun x => deviationOf eb (numberOf x)).sum

/-- `m` is the minimum of `xs` up to the error bound and `e`: it is that close to one of them, and none is smaller by more. -/
def MinimumDeviates (eb : ErrorBound) (e : ℚ) (m : FVal) (xs : List FVal) : Prop :=
  m.isFinite = true ∧ (∃ x ∈ xs, |numberOf m - numberOf x| ≤ deviationOf eb (numberOf x) + e) ∧
    ∀ x ∈ xs, numberOf m - (deviationOf eb (numberOf x) + e) ≤ numberOf x

/-- `m` is the maximum of `xs` up to the error bound and `e`. -/
def MaximumDeviates (eb : ErrorBound) (e : ℚ) (m : FVal) (xs : List FVal) : Prop :=
  m.isFinite = true ∧ (∃ x ∈ xs, |numberOf m - numberOf x| ≤ deviationOf eb (numberOf x) + e) ∧
    ∀ x ∈ xs, numberOf x ≤ numberOf m + (deviationOf eb (numberOf x) + e)

end ModelarDB.Spec
