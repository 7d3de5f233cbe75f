import Verif.Spec.Aggregates
/-
Specification of minima and maxima that are known up to an error, for C13 and C38 with linear models.
-/
namespace ModelarDB.Spec
open Model

/-- `m` is the minimum of the numbers `xs` up to `e`: one of them is that close to it, and none is smaller by more. -/
def MinimumWithin (e : ℚ) (m : FVal) (xs : List FVal) : Prop :=
  m.isFinite = true ∧ (∃ x ∈ xs, |numberOf m - numberOf x| ≤ e) ∧ ∀ x ∈ xs, numberOf m - e ≤ numberOf x

/-- `m` is the maximum of the numbers `xs` up to `e`: one of them is that close to it, and none is larger by more. -/
def MaximumWithin (e : ℚ) (m : FVal) (xs : List FVal) : Prop :=
  m.isFinite = true ∧ (∃ x ∈ xs, |numberOf m - numberOf x| ≤ e) ∧ ∀ x ∈ xs, numberOf x ≤ numberOf m + e

/-- A series of finite values of at most `M` at timestamps of at most `T` that are at least `D` apart, whose linear models that are kept end with a
finite value of at most `M`. -/
structure NumericSeries (eb : ErrorBound) (ts : List Int) (vs : List Nat) (M T D : ℚ) : Prop where
  valid : ValidErrorBound eb
  length : ts.length = vs.length
  nonempty : ts ≠ []
  range : ∀ t ∈ ts, IsI64 t
  increasing : StrictlyIncreasing ts
  size : ts.length < 2 ^ 63
  bits : ∀ v ∈ vs, v < 2 ^ 32
  finite : ∀ v ∈ vs, (FVal.ofBits32 v).isFinite = true
  value : ∀ v ∈ vs, |numberOf (FVal.ofBits32 v)| ≤ M
  time : ∀ t ∈ ts, |(t : ℚ)| ≤ T
  apart : ts.Pairwise fun (t u : Int) => D ≤ (u : ℚ) - t
  positive : 0 < D
  limit : (1 / 2) ^ 126 ≤ M ∧ M ≤ 2 ^ 120 ∧ T ≤ 2 ^ 61 ∧ M * T / D ≤ 2 ^ 120
  last : ∀ i < ts.length, (fitNextModel i eb ts vs).modelType = .swing → (fitNextModel i eb ts vs).bytesPerValue.le (.fin false 4) = true →
    (FVal.ofBits32 (fitNextModel i eb ts vs).modelLastValue).isFinite = true ∧
      |numberOf (FVal.ofBits32 (fitNextModel i eb ts vs).modelLastValue)| ≤ M

/-- How far the values that are read from a linear model may lie outside its first and last value. -/
def linearError (M T D : ℚ) : ℚ := M * T / D / 2 ^ 46 + M / 2 ^ 22

/-- The residuals of a segment that is read as `ws`, if it has a linear model and residuals, follow the last value of the model. -/
def FollowsModel (s : Segment) (ws : List Nat) : Prop :=
  s.modelType ≠ .swing ∨ s.residuals = [] ∨ ∃ first last, decodeValuesForSwing s.minValue s.maxValue s.values = some (first, last) ∧
    ws[ws.length - residualsLength s.residuals - 1]? = some last ∧ numberOf (FVal.ofBits32 last) ≠ 0

end ModelarDB.Spec
