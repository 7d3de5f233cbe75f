import Verif.Model.Compression
import Verif.Spec.Fit
/-
What is required of the linear models that are chosen for a series, so that the segments of the series
can be read back: see C07 for when it holds and when rounding breaks it.
-/
namespace ModelarDB.Spec
open Model

/-- For a relation `R` between ingested and read values: whenever a linear model is chosen for the points
from `i` and is small enough to be kept, it reads back values that are related to the ingested ones, and the value read at the last
timestamp is the last value that was stored. -/
def LinearFaithful (R : Nat → Nat → Prop) (eb : ErrorBound) (ts : List Int) (vs : List Nat) : Prop :=
  ∀ i < ts.length, ∀ sw, fitNextModel i eb ts vs = ModelBuilder.selectSwing i sw →
    (fitNextModel i eb ts vs).bytesPerValue.le (.fin false 4) = true →
    acceptAll (swingStep f64Ops) (Swing.new eb)
      (((sliceIncl ts i (i + sw.length - 1)).zip (sliceIncl vs i (i + sw.length - 1))).map fun p =>
        (p.1, FVal.ofBits32 p.2)) = some sw →
    ∀ startTime endTime, ts[i]? = some startTime → ts[i + sw.length - 1]? = some endTime →
      List.Forall₂ R (sliceIncl vs i (i + sw.length - 1))
        ((swingGrid f64Ops startTime endTime (sw.model f64Ops).1 (sw.model f64Ops).2
          (sliceIncl ts i (i + sw.length - 1))).map FVal.toBits32) ∧
      ((swingGrid f64Ops startTime endTime (sw.model f64Ops).1 (sw.model f64Ops).2
          (sliceIncl ts i (i + sw.length - 1))).map FVal.toBits32).getLast? = some (sw.model f64Ops).2.toBits32

end ModelarDB.Spec
