import Verif.Spec.Within
import Verif.Spec.Ints
import Verif.Model.Aggregates
/-
Specification of aggregates over rows, for C38.
-/
namespace ModelarDB.Spec
open Model Model.Aggregates

/-- The number of a datum, zero if it is not finite. -/
def numberOf (x : FVal) : ℚ :=
  match x with
  | .fin s q => ratOf s q
  | _ => 0

/-- The exact sum. -/
def total (xs : List FVal) : ℚ := (xs.map numberOf).sum

/-- The exact sum of the magnitudes. -/
def totalAbs (xs : List FVal) : ℚ := (xs.map fun x => |numberOf x|).sum

/-- What an aggregate of the numbers `xs` has to be. Sums may differ from the exact sum by `tolerance` times the sum of the magnitudes. Only
COUNT has a value if there are no rows. -/
def Expected (tolerance : ℚ) : ModelFunction → List FVal → Scalar → Prop
  | .count, xs, result => result = .int xs.length
  | _, [], result => result = .null
  | .min, xs, result => ∃ m, result = .f32 m ∧ (∃ x ∈ xs, m.eq x = true) ∧ ∀ x ∈ xs, x.lt m = false
  | .max, xs, result => ∃ m, result = .f32 m ∧ (∃ x ∈ xs, m.eq x = true) ∧ ∀ x ∈ xs, m.lt x = false
  | .sum, xs, result => ∃ s q, result = .f64 (.fin s q) ∧ |ratOf s q - total xs| ≤ tolerance * totalAbs xs
  | .avg, xs, result =>
    ∃ s q, result = .f64 (.fin s q) ∧ |ratOf s q - total xs / xs.length| ≤ tolerance * (totalAbs xs / xs.length)

/-- The function that an aggregate in a query stands for. -/
def functionOf (c : Call) : Option ModelFunction :=
  if c.function = "count".toList then some .count
  else if c.function = "min".toList then some .min
  else if c.function = "max".toList then some .max
  else if c.function = "sum".toList then some .sum
  else if c.function = "avg".toList then some .avg
  else none

/-- The result of an aggregate of a query for the values of the column. -/
def ExpectedCall (tolerance : ℚ) (c : Call) (values : List Nat) (result : Scalar) : Prop :=
  ∃ f, functionOf c = some f ∧ Expected tolerance f (values.map fun v => c.argument.eval (FVal.ofBits32 v)) result

/-- A segment that compressing a series with the values `vs` gives. -/
def ProducedFrom (s : Segment) (vs : List Nat) : Prop :=
  ∃ (log2 : Log2) (eb : ErrorBound) (ts : List Int) (segments : List Segment), ValidErrorBound eb ∧ ts.length = vs.length ∧ ts ≠ [] ∧
    (∀ t ∈ ts, IsI64 t) ∧ StrictlyIncreasing ts ∧ ts.length < 2 ^ 63 ∧ (∀ v ∈ vs, v < 2 ^ 32) ∧
    tryCompressUnivariate log2 eb ts vs = .segments segments ∧ s ∈ segments

/-- The operators that only change how rows are distributed. -/
def DataUnderAggregate (plan : Plan) (node : AggregateNode) : Prop :=
  plan.children = [.aggregate node (.sortedJoin [.grid (.dataSource true false)])] ∨
  plan.children = [.aggregate node (.repartition (.sortedJoin [.grid (.dataSource true false)]))]

end ModelarDB.Spec
