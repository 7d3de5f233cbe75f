import Verif.Model.ErrorBound
/-
Model of `/repo/crates/modelardb_compression/src/models/pmc_mean.rs`.
-/
namespace ModelarDB.Model

/-- `PMCMean` (pmc_mean.rs:31-42). `minValue` and `maxValue` are `f32`, `sumOfValues` is `f64`. -/
structure PMCMean where
  errorBound : ErrorBound
  minValue : FVal
  maxValue : FVal
  sumOfValues : FVal
  length : Nat
deriving DecidableEq

namespace PMCMean

/-- `PMCMean::new` (pmc_mean.rs:45-53). -/
def new (eb : ErrorBound) : PMCMean := ⟨eb, .nan, .nan, .fin false 0, 0⟩

/-- The average of `length` values with sum `sum`, as in pmc_mean.rs:63 and 92. -/
def average (sum : FVal) (length : Nat) : FVal :=
  (FVal.div f64Fmt sum (FVal.ofInt f64Fmt length)).convert f32Fmt

/-- `fit_value` (pmc_mean.rs:58-75). Returns the new state and whether the value was accepted. -/
def fitValue (p : PMCMean) (value : FVal) : PMCMean × Bool :=
  let nextMinValue := p.minValue.min value
  let nextMaxValue := p.maxValue.max value
  let nextSumOfValues := FVal.add f64Fmt p.sumOfValues value
  let nextLength := p.length + 1
  let avg := average nextSumOfValues nextLength
  if isValueWithinErrorBound p.errorBound nextMinValue avg &&
      isValueWithinErrorBound p.errorBound nextMaxValue avg then
    ({ p with minValue := nextMinValue, maxValue := nextMaxValue, sumOfValues := nextSumOfValues,
              length := nextLength }, true)
  else (p, false)

/-- `model` (pmc_mean.rs:91-93). -/
def model (p : PMCMean) : FVal := average p.sumOfValues p.length

end PMCMean

/-- `pmc_mean::sum` (pmc_mean.rs:98-100). -/
def pmcMeanSum (modelLength : Nat) (value : FVal) : FVal :=
  FVal.mul f32Fmt (FVal.ofInt f32Fmt modelLength) value

/-- `pmc_mean::grid` (pmc_mean.rs:104-108): the appended values for `n` timestamps. -/
def pmcMeanGrid (value : Nat) (n : Nat) : List Nat := List.replicate n value

end ModelarDB.Model
