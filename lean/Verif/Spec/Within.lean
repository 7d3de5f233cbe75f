import Verif.Model.ErrorBound
import Mathlib.Algebra.Order.Field.Power
/-
The meaning of an error bound in exact arithmetic, independent of the way it is checked.
-/
namespace ModelarDB.Spec
open Model

/-- The error bounds that the constructors accept (`b` is the bit pattern of the argument). -/
def ValidErrorBound (eb : ErrorBound) : Prop :=
  eb = .lossless ∨ ∃ b : Nat, b < 2 ^ 32 ∧
    (ErrorBound.tryNewAbsolute (FVal.ofBits32 b) = some eb ∨
     ErrorBound.tryNewRelative (FVal.ofBits32 b) = some eb)

/-- The rational number of a signed magnitude. -/
def ratOf (s : Bool) (q : ℚ) : ℚ := if s then -q else q

/-- `approximate` is within the error bound of `real`, in exact arithmetic. The bounds are widened by
the rounding errors of the check (a factor `1 + 2 ^ -23` or `1 + 2 ^ -22`). -/
def WithinExact : ErrorBound → FVal → FVal → Prop
  | _, .nan, .nan => True
  | _, .inf s, .inf t => s = t
  | .lossless, .fin s p, .fin t q => ratOf s p = ratOf t q
  | .absolute (.fin _ b), .fin s p, .fin t q => |ratOf s p - ratOf t q| ≤ b * (1 + 1 / 2 ^ 23)
  | .relative (.fin _ r), .fin s p, .fin t q =>
    |ratOf s p - ratOf t q| ≤ r / 100 * |ratOf s p| * (1 + 1 / 2 ^ 22)
  | _, _, _ => False

/-- The greatest deviation from the value `q` that an error bound allows. -/
def allowed (eb : ErrorBound) (q : ℚ) : ℚ :=
  match eb with
  | .absolute (.fin _ b) => b
  | .relative (.fin _ r) => r / 100 * |q|
  | _ => 0

/-- The part of the allowed deviation that the models leave for rounding. -/
def margin (eb : ErrorBound) : ℚ :=
  match eb with
  | .absolute _ => 9 / 1000
  | .relative _ => 5 / 10000
  | .lossless => 0

/-- The number with a bit pattern, for patterns of finite numbers. -/
def realValue (bits : Nat) : ℚ := ((FVal.ofBits32 bits).toRat?).getD 0

/-- The scale of points that start with `(t0, v0)`: `M` bounds the values and allowed deviations, `T` the timestamps and `G` the slopes of the
lines from the first point to the ends of the allowed deviations from the other points. -/
structure LinearScale (eb : ErrorBound) (t0 : Int) (v0 : ℚ) (others : List (Int × ℚ)) (M G T : ℚ) : Prop where
  first : |v0| ≤ M ∧ |(t0 : ℚ)| ≤ T
  normal : (1 / 2) ^ 126 ≤ M
  value : ∀ p ∈ others, |p.2| ≤ M
  deviation : ∀ p ∈ others, allowed eb p.2 ≤ M
  time : ∀ p ∈ others, |(p.1 : ℚ)| ≤ T
  slope : ∀ p ∈ others, |p.2 - v0| + allowed eb p.2 + M / 2 ^ 48 ≤ G * (p.1 - t0)
  nonneg : 0 ≤ G
  limit : T ≤ 2 ^ 64 ∧ G * T + M ≤ 2 ^ 100

/-- What rounding adds to the deviation of a linear model of `n` points with the duration `D`. -/
def linearSlack (n : Nat) (M G T D : ℚ) : ℚ := n * (G * T + M) / 2 ^ 47 + M / 2 ^ 19 + M * T / D / 2 ^ 69

/-- A bit pattern of a finite number. -/
def FiniteBits (bits : Nat) : Prop := (FVal.ofBits32 bits).isFinite = true

/-- Rounding is small for `n` points with the given values: for lossless compression it is small compared to the precision of the values, the least of
which is `m`, otherwise compared to the deviation that the error bound allows and to the values. -/
def SmallRounding (eb : ErrorBound) (n : Nat) (values : List Nat) (m M G T D : ℚ) : Prop :=
  (eb = .lossless ∧ n * (G * T + M) / 2 ^ 46 + M * T / D / 2 ^ 69 < m / 2 ^ 26) ∨
  ((∀ v ∈ values, FiniteBits v → linearSlack n M G T D ≤ margin eb * allowed eb (realValue v)) ∧
    n * (G * T + M) / 2 ^ 47 + M / 2 ^ 21 ≤ m / 2 ∧ G * T / 2 ^ 49 + M / 2 ^ 46 + M * T / D / 2 ^ 69 < m / 2 ^ 27)

/-- The scale of a series: the absolute values of its finite values are at most `M` and exceed the allowed deviation by at least `m`, its
timestamps are at least `D` apart and at most `T`, the slopes of the lines from one point to the ends of the allowed deviation of a later
one are at most `G`, and these are such that rounding is small. -/
structure SeriesScale (eb : ErrorBound) (points : List (Int × Nat)) (m M G T D : ℚ) : Prop where
  value : ∀ p ∈ points, FiniteBits p.2 → |realValue p.2| ≤ M
  least : ∀ p ∈ points, FiniteBits p.2 → m + allowed eb (realValue p.2) ≤ |realValue p.2|
  time : ∀ p ∈ points, |(p.1 : ℚ)| ≤ T
  apart : points.Pairwise fun p q => D ≤ q.1 - p.1
  slope : points.Pairwise fun p q => FiniteBits p.2 → FiniteBits q.2 →
    |realValue q.2 - realValue p.2| + allowed eb (realValue q.2) + M / 2 ^ 48 ≤ G * (q.1 - p.1)
  positive : 0 < m ∧ 0 ≤ G ∧ 0 < D
  limit : (1 / 2) ^ 126 ≤ M ∧ T ≤ 2 ^ 61 ∧ G * T + M ≤ 2 ^ 100
  rounding : SmallRounding eb points.length (points.map Prod.snd) m M G T D

end ModelarDB.Spec
