import Verif.Model.ErrorBound
/-
Specification of the minimum and maximum of stored values, for C13.
-/
namespace ModelarDB.Spec
open Model

/-- `m` is the minimum of `ws` as floats, ignoring NaN: it is one of them and no other is smaller. It is
NaN if all of them are. -/
def IsMinimum (m : Nat) (ws : List Nat) : Prop :=
  (∀ w ∈ ws, (FVal.ofBits32 w).isNan = true) ∧ (FVal.ofBits32 m).isNan = true ∨
  m ∈ ws ∧ (FVal.ofBits32 m).isNan = false ∧ ∀ w ∈ ws, (FVal.ofBits32 w).lt (FVal.ofBits32 m) = false

/-- `m` is the maximum of `ws` as floats, ignoring NaN: it is one of them and no other is larger. It is
NaN if all of them are. -/
def IsMaximum (m : Nat) (ws : List Nat) : Prop :=
  (∀ w ∈ ws, (FVal.ofBits32 w).isNan = true) ∧ (FVal.ofBits32 m).isNan = true ∨
  m ∈ ws ∧ (FVal.ofBits32 m).isNan = false ∧ ∀ w ∈ ws, (FVal.ofBits32 m).lt (FVal.ofBits32 w) = false

end ModelarDB.Spec
