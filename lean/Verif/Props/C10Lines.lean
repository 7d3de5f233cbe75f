import Verif.Props.C11
/-
C10 with conditions on the ingested points only: which series that contain linear models are read back unchanged.
-/
namespace ModelarDB.Props
open Model Spec Lemmas

theorem sameFloat_of_within {v w : Nat} (h : ReadWithin .lossless v w) : SameFloat v w := by
  unfold ReadWithin at h
  unfold SameFloat
  cases hv : FVal.ofBits32 v <;> cases hw : FVal.ofBits32 w <;> rw [hv, hw] at h <;> simp only [WithinExact] at h
  · exact Or.inr ⟨rfl, rfl⟩
  · subst h
    exact Or.inl (by simp [FVal.eq])
  · refine Or.inl ?_
    simp only [FVal.eq, decide_eq_true_eq]
    exact h

theorem faithful_lossless {ts : List Int} {vs : List Nat} (h : LinearFaithful (ReadWithin .lossless) .lossless ts vs) :
    LinearFaithful SameFloat .lossless ts vs := by
  intro i hi sw hm hkept hacc t0 t1 h0 h1
  obtain ⟨g1, g2⟩ := h i hi sw hm hkept hacc t0 t1 h0 h1
  exact ⟨g1.imp fun _ _ => sameFloat_of_within, g2⟩

/-- **C10** with conditions on the ingested points only: a series without NaN whose values are large enough for the rounding on lines through
its points (`SeriesScale`) is compressed without an error and all segments read back in order give its timestamps and equal values. -/
theorem C10_lossless_readback_scale_partial (log2 : Log2) (ts : List Int) (vs : List Nat)
    (hlen : ts.length = vs.length) (hne : ts ≠ []) (hrange : ∀ t ∈ ts, IsI64 t) (hinc : StrictlyIncreasing ts)
    (hsize : ts.length < 2 ^ 63) (h32 : ∀ v ∈ vs, v < 2 ^ 32) (hnonan : ∀ v ∈ vs, (FVal.ofBits32 v).isNan = false)
    {m M G T D : ℚ} (hscale : SeriesScale .lossless (ts.zip vs) m M G T D) :
    ∃ segments ws, tryCompressUnivariate log2 .lossless ts vs = .segments segments ∧
      gridAll segments = some (ts, ws) ∧ List.Forall₂ SameFloat vs ws :=
  C10_lossless_readback_partial log2 ts vs hlen hne hrange hinc hsize h32 hnonan 
    (faithful_lossless (faithful_of_scale (Or.inl rfl) hlen hrange hscale))

/-- A counter that is read every second, with timestamps in microseconds: ten values from `1000000` to `1000018`, then `1000050`, an infinity
and `1000060`. -/
def counterSeries : List Int × List Nat :=
  ([1600000000000000, 1600000001000000, 1600000002000000, 1600000003000000, 1600000004000000, 1600000005000000, 1600000006000000,
    1600000007000000, 1600000008000000, 1600000009000000, 1600000010000000, 1600000011000000, 1600000012000000],
   [0x49742400, 0x49742420, 0x49742440, 0x49742460, 0x49742480, 0x497424a0, 0x497424c0, 0x497424e0, 0x49742500, 0x49742520,
    0x49742720, 0x7f800000, 0x497427c0])

theorem counterSeries_scale : SeriesScale .lossless (counterSeries.1.zip counterSeries.2) 1000000 1000060 (1 / 20000) 1600000012000000 1000000 := by
  refine ⟨?_, ?_, ?_, ?_, ?_, ?_, ?_, ?_⟩
  · unfold FiniteBits; decide +kernel
  · unfold FiniteBits; decide +kernel
  · decide +kernel
  · decide +kernel
  · unfold FiniteBits; decide +kernel
  · norm_num
  · norm_num
  · exact Or.inl ⟨rfl, by norm_num [counterSeries]⟩

/-- The conditions hold of the counter and a linear model of its first ten values is kept. -/
example : counterSeries.2.map realValue = [1000000, 1000002, 1000004, 1000006, 1000008, 1000010, 1000012, 1000014, 1000016, 1000018,
      1000050, 0, 1000060] ∧
    (fitNextModel 0 .lossless counterSeries.1 counterSeries.2).modelType = .swing ∧
    (fitNextModel 0 .lossless counterSeries.1 counterSeries.2).endIndex = 9 ∧
    ∃ segments ws, tryCompressUnivariate exactLog2 .lossless counterSeries.1 counterSeries.2 = .segments segments ∧
      gridAll segments = some (counterSeries.1, ws) ∧ List.Forall₂ SameFloat counterSeries.2 ws :=
  ⟨by decide +kernel, by decide +kernel, by decide +kernel,
    C10_lossless_readback_scale_partial exactLog2 _ _ rfl (by decide) (by unfold IsI64; decide) (by unfold StrictlyIncreasing; decide)
      (by decide) (by decide) (by decide +kernel) counterSeries_scale⟩

end ModelarDB.Props
