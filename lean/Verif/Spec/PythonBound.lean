import Verif.Model.PythonBound
/-
What a user of the Python API expects from error bounds, for C68.
-/
namespace ModelarDB.Spec.PythonBound
open Model Model.PythonBound

/-- An error bound that was declared: `absolute` or in percent. -/
structure Declared where
  absolute : Bool
  value : ℚ

/-- Documented as valid. -/
def Declared.Valid (d : Declared) : Prop := 0 < d.value ∧ (d.absolute = false → d.value ≤ 100)

/-- The error bound a table uses has the declared kind and this value. -/
def Used (d : Declared) (m : ℚ) (e : ErrorBound) : Prop :=
  e = if d.absolute then .absolute (.fin false m) else .relative (.fin false m)

/-- A table never allows a larger error than declared. -/
def Honoured (d : Declared) (e : ErrorBound) : Prop := ∃ m, Used d m e ∧ 0 < m ∧ m ≤ d.value

/-- The object for a declared error bound. -/
def Declared.object (d : Declared) : Bound := ⟨if d.absolute then .absolute else .relative, .fin false d.value⟩

end ModelarDB.Spec.PythonBound
