import Verif.Spec.EndToEnd
import Verif.Spec.StoredAggregates
/-
Specification of aggregates of the rows that are ingested, for C86. All conditions are about the rows that are received.
-/
namespace ModelarDB.Spec
open Model Model.Aggregates

variable {α : Type}

/-- The values of a field of rows. -/
def valuesOfRows (value : α → Nat → Nat) (field : Nat) (rows : List (Model.Storage.Row α)) : List FVal :=
  rows.map fun r => FVal.ofBits32 (value r.val field)

/-- The scale of rows that are compressed at most `n` at a time: as `SeriesScale`, but for the rows that are received instead of the series that are
compressed. The conditions about two points are about two rows with the same tags. -/
structure RowsScale (eb : ErrorBound) (n : Nat) (value : α → Nat → Nat) (field : Nat) (rows : List (Model.Storage.Row α)) (m M G T D : ℚ) : Prop where
  finite : ∀ r ∈ rows, FiniteBits (value r.val field)
  most : ∀ r ∈ rows, |realValue (value r.val field)| ≤ M
  least : ∀ r ∈ rows, m + allowed eb (realValue (value r.val field)) ≤ |realValue (value r.val field)|
  time : ∀ r ∈ rows, |(r.ts : ℚ)| ≤ T
  apart : ∀ r ∈ rows, ∀ s ∈ rows, r.tags = s.tags → r.ts < s.ts → D ≤ (s.ts : ℚ) - r.ts
  slope : ∀ r ∈ rows, ∀ s ∈ rows, r.tags = s.tags → r.ts < s.ts →
    |realValue (value s.val field) - realValue (value r.val field)| + allowed eb (realValue (value s.val field)) + M / 2 ^ 48 ≤ G * ((s.ts : ℚ) - r.ts)
  positive : 0 < m ∧ 0 ≤ G ∧ 0 < D
  limit : (1 / 2) ^ 126 ≤ M ∧ T ≤ 2 ^ 61 ∧ G * T + M ≤ 2 ^ 100 ∧ n * (3 * M + 3 * M * T / D) ≤ 2 ^ 120
  rounding : SmallRounding eb n (rows.map fun r => value r.val field) m M G T D

/-- The rows of each series have one interval: a row that is not the last one of its series is followed by one that is the interval later and by none
before that. -/
def RegularRows (rows : List (Model.Storage.Row α)) : Prop :=
  ∃ interval : List String → Int, ∀ r ∈ rows, ∀ s ∈ rows, r.tags = s.tags → r.ts < s.ts →
    0 < interval r.tags ∧ r.ts + interval r.tags ≤ s.ts ∧ ∃ next ∈ rows, next.tags = r.tags ∧ next.ts = r.ts + interval r.tags

/-- What an aggregate of the values `xs` that are stored with the error bound `eb` has to be: MIN and MAX up to the error bound and `e`, SUM up to the
sum of the error bounds and `rounding` and AVG up to the average of them. Sums that overflow are not restricted. -/
def AggregateDeviates (eb : ErrorBound) (e rounding : ℚ) : ModelFunction → List FVal → Scalar → Prop
  | .count, xs, r => r = .int xs.length
  | .min, xs, r => ∃ m, r = .f32 m ∧ MinimumDeviates eb e m xs
  | .max, xs, r => ∃ m, r = .f32 m ∧ MaximumDeviates eb e m xs
  | .sum, xs, r => ∃ x, r = .f64 x ∧ (x.isFinite = true → |numberOf x - total xs| ≤ totalDeviation eb xs + rounding)
  | .avg, xs, r => ∃ x, r = .f64 x ∧ (x.isFinite = true → |numberOf x - total xs / xs.length| ≤ (totalDeviation eb xs + rounding) / xs.length)

end ModelarDB.Spec
