import Verif.Lemmas.Packing
import Verif.Props.C05
/-
C08: model parameters survive being packed into a segment.

A segment is built by `FittedModel.finish` with the points from the start of the model to
`residualsEnd`; the points after the model are residuals, whose minimum and maximum widen the ones
of the model. The readers start with `decodeValuesForPmcMean` and `decodeValuesForSwing`.
-/
namespace ModelarDB.Props
open Model Spec Lemmas

/-- **C08** for constant models that are not NaN: the bit pattern of the value is recovered, with any
residuals. -/
theorem C08_constant_parameter_recovered_partial (log2 : Log2) (eb : ErrorBound) (i : Nat) (p : PMCMean)
    (hp : IsF32 p.model) (hn : p.model ≠ .nan) (residualsEnd : Nat) (ts : List Int) (vs : List Nat) (s : Segment)
    (h : (ModelBuilder.selectPmcMean i p).finish log2 eb residualsEnd ts vs = some s) :
    s.modelType = .pmcMean ∧ decodeValuesForPmcMean s.minValue s.maxValue s.values = some p.model.toBits32 := by
  have hnan : (FVal.ofBits32 p.model.toBits32).isNan = false := by
    rw [ofBits_toBits hp]
    cases hm : p.model with
    | nan => exact absurd hm hn
    | _ => rfl
  rcases finish_fields h with ⟨_, h1, h2, h3, h4, _⟩ | ⟨_, h1, r, _, h2, h3, _, h4⟩
  · rw [h1, h2, h3, h4]
    exact ⟨rfl, rfl⟩
  · rcases h4 with ⟨_, h4⟩ | ⟨h5, _⟩
    · rw [h1, h2, h3, h4]
      exact ⟨rfl, pmc_packing (toBits_lt hp) hnan _ _⟩
    · cases h5

/-- **C08** for linear models between two numbers: the bit pattern of the first value is recovered, and
the last value is, except that zero may be recovered with the opposite sign. -/
theorem C08_linear_parameters_recovered_partial (log2 : Log2) (eb : ErrorBound) (i : Nat) (sw : Swing)
    (h1 : IsF32 (sw.model f64Ops).1) (h2 : IsF32 (sw.model f64Ops).2) (n1 : (sw.model f64Ops).1 ≠ .nan)
    (n2 : (sw.model f64Ops).2 ≠ .nan) (residualsEnd : Nat) (ts : List Int) (vs : List Nat) (s : Segment)
    (h : (ModelBuilder.selectSwing i sw).finish log2 eb residualsEnd ts vs = some s) :
    s.modelType = .swing ∧ ∃ last, decodeValuesForSwing s.minValue s.maxValue s.values =
      some ((sw.model f64Ops).1.toBits32, last) ∧
      (last = (sw.model f64Ops).2.toBits32 ∨
        (last = (sw.model f64Ops).1.toBits32 ∧ (sw.model f64Ops).1.eq (sw.model f64Ops).2 = true)) := by
  refine swing_recovered h1 h2 ?_ ?_ h
  · cases hm : (sw.model f64Ops).1 with
    | nan => exact absurd hm n1
    | _ => rfl
  · cases hm : (sw.model f64Ops).2 with
    | nan => exact absurd hm n2
    | _ => rfl

/-- A constant model of the value `1`, with the residuals `0.5` and `2`. -/
example : ∃ s, (ModelBuilder.selectPmcMean 0 ⟨.lossless, .fin false 1, .fin false 1, .fin false 2, 2⟩).finish exactLog2
      .lossless 3 [0, 1, 2, 3] [0x3f800000, 0x3f800000, 0x3f000000, 0x40000000] = some s ∧
    s.minValue = 0x3f000000 ∧ s.maxValue = 0x40000000 ∧
    decodeValuesForPmcMean s.minValue s.maxValue s.values = some 0x3f800000 := by
  refine ⟨_, Option.some_get (by decide +kernel) |>.symm, ?_, ?_, ?_⟩ <;> decide +kernel

/-- A falling line from `2` to `1`, with the residual `0.5`. -/
example : ∃ s, (ModelBuilder.selectSwing 0 ⟨.lossless, 0, 1, .fin false 2, .fin true 1, .fin false 2, .fin true 1,
      .fin false 2, .fin false 0, .fin false 0, 2⟩).finish exactLog2
      .lossless 2 [0, 1, 2] [0x40000000, 0x3f800000, 0x3f000000] = some s ∧
    s.minValue = 0x3f000000 ∧ s.maxValue = 0x40000000 ∧
    decodeValuesForSwing s.minValue s.maxValue s.values = some (0x40000000, 0x3f800000) := by
  refine ⟨_, Option.some_get (by decide +kernel) |>.symm, ?_, ?_, ?_⟩ <;> decide +kernel

/-- A series of eight NaN followed by the number one. -/
def nanSeries : List Int × List Nat :=
  ([0, 1, 2, 3, 4, 5, 6, 7, 8], List.replicate 8 0x7fc00000 ++ [0x3f800000])

/-- **C08** is false for a constant model of NaN whose residuals are numbers: eight NaN followed by `1`
are compressed into one segment of which `1` is recovered as the value of the model, so that the
NaN are read back as `1` and the `1` as NaN. -/
theorem C08_nan_not_recovered :
    ∃ s, tryCompressUnivariate exactLog2 .lossless nanSeries.1 nanSeries.2 = .segments [s] ∧
      s.modelType = .pmcMean ∧ decodeValuesForPmcMean s.minValue s.maxValue s.values = some 0x3f800000 ∧
      grid s = some (nanSeries.1, List.replicate 8 0x3f800000 ++ [0x7fc00000]) := by
  refine ⟨⟨.pmcMean, 0, 8, [9], 0x3f800000, 0x3f800000, [], [194, 76, 4, 1]⟩, ?_, rfl, ?_, ?_⟩ <;> decide +kernel

end ModelarDB.Props
