import Verif.Model.MacaqueV
import Mathlib.Algebra.Order.Field.Power
/-
What is assumed of `f32::log2`: the integer computed from it is less than one away from the exact
absolute value of the logarithm.
-/
namespace ModelarDB.Spec
open Model

/-- `k = ⌊|log2 q|⌋` computed in floating-point is less than one away from `|log₂ q|`. -/
def Log2Accurate (log2 : Log2) : Prop :=
  ∀ q : ℚ, 0 < q →
    (q ≤ 1 → (2 : ℚ) ^ (-(log2 (.fin false q) + 1)) < q ∧ q < (2 : ℚ) ^ (-(log2 (.fin false q) - 1))) ∧
    (1 ≤ q → (2 : ℚ) ^ (log2 (.fin false q) - 1) < q ∧ q < (2 : ℚ) ^ (log2 (.fin false q) + 1))

end ModelarDB.Spec
