import Verif.Model.ErrorBound
import Verif.Model.Segment
/-
Model of `/repo/crates/modelardb_compression/src/models/swing.rs`.

The computations are written with the operations `FloatOps`, so that the same definitions can be
read with the arithmetic of the code (`f64Ops`) and with exact arithmetic (`exactOps`). The code is
the instance `f64Ops`.
-/
namespace ModelarDB.Model

/-- Arithmetic used by `Swing`. -/
structure FloatOps where
  add : FVal → FVal → FVal
  sub : FVal → FVal → FVal
  mul : FVal → FVal → FVal
  div : FVal → FVal → FVal
  ofInt : Int → FVal
  toValue : FVal → FVal

/-- binary64 arithmetic and conversion to `Value` (binary32), as in the code. -/
def f64Ops : FloatOps where
  add := FVal.add f64Fmt
  sub := FVal.sub f64Fmt
  mul := FVal.mul f64Fmt
  div := FVal.div f64Fmt
  ofInt := FVal.ofInt f64Fmt
  toValue := FVal.convert f32Fmt

/-- A rational number as a datum, without rounding. -/
def FVal.exact (q : ℚ) : FVal := if q < 0 then .fin true (-q) else .fin false q

/-- A binary operation without rounding; as in binary64 (`g`) if an operand is not finite. -/
def FVal.exactOp (f : ℚ → ℚ → ℚ) (g : FVal → FVal → FVal) : FVal → FVal → FVal
  | .fin s p, .fin t q => FVal.exact (f (FVal.signed s p) (FVal.signed t q))
  | a, b => g a b

/-- Arithmetic without rounding. Division by zero is as in binary64. -/
def exactOps : FloatOps where
  add := FVal.exactOp (· + ·) (FVal.add f64Fmt)
  sub := FVal.exactOp (· - ·) (FVal.sub f64Fmt)
  mul := FVal.exactOp (· * ·) (FVal.mul f64Fmt)
  div a b := if b.eq (.fin false 0) then FVal.div f64Fmt a b
    else FVal.exactOp (· / ·) (FVal.div f64Fmt) a b
  ofInt n := FVal.exact n
  toValue x := x

/-- `compute_slope_and_intercept` (swing.rs:323-340). `i64` subtraction wraps. -/
def computeSlopeAndIntercept (ops : FloatOps) (startTime : Int) (firstValue : FVal) (endTime : Int)
    (lastValue : FVal) : FVal × FVal :=
  if equalOrNan firstValue lastValue then (.fin false 0, firstValue)
  else
    let slope := ops.div (ops.sub lastValue firstValue) (ops.ofInt (wrapI64 (endTime - startTime)))
    let intercept := ops.sub firstValue (ops.mul slope (ops.ofInt startTime))
    (slope, intercept)

/-- The value of a line at a timestamp (swing.rs:143-146, 291-292, 316). -/
def lineAt (ops : FloatOps) (slope intercept : FVal) (timestamp : Int) : FVal :=
  ops.add (ops.mul slope (ops.ofInt timestamp)) intercept

/-- `Swing` (swing.rs:34-63). -/
structure Swing where
  errorBound : ErrorBound
  startTime : Int
  endTime : Int
  firstValue : FVal
  upperSlope : FVal
  upperIntercept : FVal
  lowerSlope : FVal
  lowerIntercept : FVal
  numerator : FVal
  denominator : FVal
  length : Nat
deriving DecidableEq

namespace Swing

/-- `Swing::new` (swing.rs:66-80). -/
def new (eb : ErrorBound) : Swing :=
  ⟨eb, 0, 0, .nan, .nan, .nan, .nan, .nan, .fin false 0, .fin false 0, 0⟩

/-- `compute_slope_with_minimum_mse` (swing.rs:212-228); `x.powi(2)` is `x * x`. -/
def computeSlopeWithMinimumMse (ops : FloatOps) (startTime : Int) (firstValue : FVal) (endTime : Int)
    (lastValue : FVal) : FVal × FVal :=
  if equalOrNan firstValue lastValue then (.fin false 0, .fin false 0)
  else
    let duration := ops.ofInt (wrapI64 (endTime - startTime))
    (ops.mul (ops.sub lastValue firstValue) duration, ops.mul duration duration)

/-- `fit_data_point` (swing.rs:101-198). `value` is an `f32`; widening it to `f64` is exact. Returns
the new state and whether the point was accepted. -/
def fitDataPoint (ops : FloatOps) (s : Swing) (timestamp : Int) (value : FVal) : Swing × Bool :=
  let maximumDeviation := maximumAllowedDeviation s.errorBound value
  if s.length = 0 then
    ({ s with startTime := timestamp, endTime := timestamp, firstValue := value,
              length := s.length + 1 }, true)
  else if !s.firstValue.isFinite || !value.isFinite then
    if equalOrNan s.firstValue value then
      ({ s with endTime := timestamp, upperSlope := value, upperIntercept := value, lowerSlope := value,
                lowerIntercept := value, length := s.length + 1 }, true)
    else (s, false)
  else
    let upper := computeSlopeAndIntercept ops s.startTime s.firstValue timestamp
      (ops.add value maximumDeviation)
    let lower := computeSlopeAndIntercept ops s.startTime s.firstValue timestamp
      (ops.sub value maximumDeviation)
    if s.length = 1 then
      ({ s with endTime := timestamp, upperSlope := upper.1, upperIntercept := upper.2,
                lowerSlope := lower.1, lowerIntercept := lower.2, length := s.length + 1 }, true)
    else
      let upperValue := lineAt ops s.upperSlope s.upperIntercept timestamp
      let lowerValue := lineAt ops s.lowerSlope s.lowerIntercept timestamp
      if (ops.add upperValue maximumDeviation).lt value || value.lt (ops.sub lowerValue maximumDeviation) then
        (s, false)
      else
        let lowerUpper := value.lt (ops.sub upperValue maximumDeviation)
        let raiseLower := (ops.add lowerValue maximumDeviation).lt value
        let mse := computeSlopeWithMinimumMse ops s.startTime s.firstValue timestamp value
        ({ s with
           endTime := timestamp
           upperSlope := if lowerUpper then upper.1 else s.upperSlope
           upperIntercept := if lowerUpper then upper.2 else s.upperIntercept
           lowerSlope := if raiseLower then lower.1 else s.lowerSlope
           lowerIntercept := if raiseLower then lower.2 else s.lowerIntercept
           numerator := ops.add s.numerator mse.1
           denominator := ops.add s.denominator mse.2
           length := s.length + 1 }, true)

/-- The slope chosen by `model` (swing.rs:249-254). -/
def slope (ops : FloatOps) (s : Swing) : FVal :=
  s.lowerSlope.max ((ops.div s.numerator s.denominator).min s.upperSlope)

/-- `model` (swing.rs:246-259): the first and last value. -/
def model (ops : FloatOps) (s : Swing) : FVal × FVal :=
  let lastValue := ops.add (ops.mul (s.slope ops) (ops.ofInt (wrapI64 (s.endTime - s.startTime)))) s.firstValue
  (ops.toValue s.firstValue, ops.toValue lastValue)

end Swing

/-- `swing::grid` (swing.rs:304-319): the appended values. -/
def swingGrid (ops : FloatOps) (startTime endTime : Int) (firstValue lastValue : FVal)
    (timestamps : List Int) : List FVal :=
  let line := computeSlopeAndIntercept ops startTime firstValue endTime lastValue
  timestamps.map fun t => ops.toValue (lineAt ops line.1 line.2 t)

/-- `swing::sum` (swing.rs:264-300). `none` is a panic. Both subtractions of `residualsLength` wrap in
release builds if there are more residuals than points, which no stored segment has; this is
modelled as a panic. -/
def swingSum (ops : FloatOps) (startTime endTime : Int) (timestamps : List Nat) (firstValue lastValue : FVal)
    (residualsLength : Nat) : Option FVal :=
  let line := computeSlopeAndIntercept ops startTime firstValue endTime lastValue
  if areCompressedTimestampsRegular timestamps then
    let first := lineAt ops line.1 line.2 startTime
    let last := lineAt ops line.1 line.2 endTime
    let average := ops.div (ops.add first last) (.fin false 2)
    match segmentLen startTime endTime timestamps with
    | none => none
    | some length =>
      if length < residualsLength then none
      else some (ops.toValue (ops.mul average (ops.ofInt (length - residualsLength : Nat))))
  else
    match decompressAllTimestamps startTime endTime timestamps with
    | none => none
    | some ts =>
      if ts.length < residualsLength then none
      else some (ops.toValue ((ts.take (ts.length - residualsLength)).foldl
        (fun sum t => ops.add sum (lineAt ops line.1 line.2 t)) (.fin false 0)))

/-- The step of the linear model on a pair of a timestamp and a value (types.rs:78). -/
def swingStep (ops : FloatOps) (s : Swing) (p : Int × FVal) : Swing × Bool := s.fitDataPoint ops p.1 p.2

end ModelarDB.Model
