import Verif.Model.Float
/-
Model of the error bounds (`/repo/crates/modelardb_types/src/types.rs`) and of the functions
checking them (`/repo/crates/modelardb_compression/src/models/mod.rs`).

A `Value` is an `f32`; it is represented by its bit pattern (a natural number below `2 ^ 32`) where
it is stored or copied, and by an `FVal` where it is computed with.
-/
namespace ModelarDB.Model

/-- `ErrorBound` (types.rs:300-307). -/
inductive ErrorBound where
  | absolute (bound : FVal)
  | relative (percentage : FVal)
  | lossless
deriving DecidableEq

/-- `ErrorBound::try_new_absolute` (types.rs:312-320). -/
def ErrorBound.tryNewAbsolute (value : FVal) : Option ErrorBound :=
  if !value.isFinite || value.le (.fin false 0) then none else some (.absolute value)

/-- `ErrorBound::try_new_relative` (types.rs:325-334). -/
def ErrorBound.tryNewRelative (percentage : FVal) : Option ErrorBound :=
  if !((FVal.fin false 0).lt percentage && percentage.le (.fin false 100)) then none
  else some (.relative percentage)

/-- `equal_or_nan` (models/mod.rs:93-95). It is applied to values widened to `f64`; widening is
exact, so it is left out. -/
def equalOrNan (a b : FVal) : Bool := a.eq b || (a.isNan && b.isNan)

/-- `is_value_within_error_bound` (models/mod.rs:53-80). -/
def isValueWithinErrorBound (eb : ErrorBound) (real approximate : FVal) : Bool :=
  match eb with
  | .absolute bound =>
    if equalOrNan real approximate then true
    else ((FVal.sub f32Fmt real approximate).abs).le bound
  | .relative percentage =>
    if equalOrNan real approximate then true
    else
      let difference := FVal.sub f32Fmt real approximate
      let result := (FVal.div f32Fmt difference real).abs
      (FVal.mul f32Fmt result (.fin false 100)).le percentage
  | .lossless => equalOrNan real approximate

/-- `maximum_allowed_deviation` (models/mod.rs:83-90), computed in `f64`. The literals `0.99` and
`100.1` are rounded to `f64`. -/
def maximumAllowedDeviation (eb : ErrorBound) (value : FVal) : FVal :=
  match eb with
  | .absolute bound => FVal.mul f64Fmt bound (FVal.ofRat f64Fmt false (99 / 100))
  | .relative percentage =>
    (FVal.mul f64Fmt value
      (FVal.div f64Fmt percentage (FVal.ofRat f64Fmt false (1001 / 10)))).abs
  | .lossless => .fin false 0

/-- `f32::min` on bit patterns. -/
def min32 (a b : Nat) : Nat :=
  if (FVal.ofBits32 a).isNan then b
  else if (FVal.ofBits32 b).isNan then a
  else if (FVal.ofBits32 b).lt (FVal.ofBits32 a) then b else a

/-- `f32::max` on bit patterns. -/
def max32 (a b : Nat) : Nat :=
  if (FVal.ofBits32 a).isNan then b
  else if (FVal.ofBits32 b).isNan then a
  else if (FVal.ofBits32 a).lt (FVal.ofBits32 b) then b else a

/-- The bit pattern of `f32::NAN`. -/
def nanBits32 : Nat := 0x7fc00000

end ModelarDB.Model
