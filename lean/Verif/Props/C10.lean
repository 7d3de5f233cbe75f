import Verif.Lemmas.ReadBack
import Verif.Props.C05
import Verif.Props.C06
import Verif.Props.C07
import Verif.Props.C08
/-
C10: lossless series read back unchanged.
-/
namespace ModelarDB.Props
open Model Spec Lemmas

/-- Two bit patterns are equal as floats, or both are NaN. -/
def SameFloat (v w : Nat) : Prop :=
  (FVal.ofBits32 v).eq (FVal.ofBits32 w) = true ∨ ((FVal.ofBits32 v).isNan = true ∧ (FVal.ofBits32 w).isNan = true)

instance (v w : Nat) : Decidable (SameFloat v w) := by unfold SameFloat; infer_instance

theorem sameFloat_iff (v w : Nat) : SameFloat v w ↔ equalOrNan (FVal.ofBits32 v) (FVal.ofBits32 w) = true := by
  simp [SameFloat, equalOrNan]

/-- What `readback` needs to know about the relation. -/
theorem sameFloat_conditions (log2 : Log2) (vs : List Nat) : (∀ v, SameFloat v v) ∧
    (∀ v w, SameFloat v w → (FVal.ofBits32 v).isNan = false → (FVal.ofBits32 w).isNan = false) ∧
    (∀ base l, (∀ v ∈ l, v ∈ vs) → List.Forall₂ SameFloat l (storedValues log2 .lossless base l)) ∧
    (∀ (l : List Nat) p, (∀ v ∈ l, v ∈ vs) →
      acceptAll PMCMean.fitValue (PMCMean.new .lossless) (l.map FVal.ofBits32) = some p →
      ∀ v ∈ l, SameFloat v p.model.toBits32) := by
  have hrefl : ∀ v, SameFloat v v := fun v => (sameFloat_iff v v).mpr (equalOrNan_self _)
  refine ⟨hrefl, ?_, ?_, ?_⟩
  · intro v w h hv
    rcases h with h | ⟨h, _⟩
    · cases hw : FVal.ofBits32 w with
      | nan => rw [hw] at h; cases hv' : FVal.ofBits32 v <;> rw [hv'] at h <;> cases h
      | _ => rfl
    · rw [hv] at h; cases h
  · intro base l _
    rw [storedValues_lossless]
    exact List.forall₂_same.mpr (fun v _ => hrefl v)
  · intro l p _ h v hv
    have := C06_constant_model_passes_check_partial .lossless (Or.inl rfl) (by intro r h; cases h) l p h v hv
      p.model.toBits32 (List.mem_replicate.mpr ⟨(List.length_pos_of_mem hv).ne', rfl⟩)
    exact (sameFloat_iff _ _).mpr this

/-- **C10** for series without NaN: the series is compressed without an error and all segments read back
in order give its timestamps and equal values, provided that the linear models that were chosen do. -/
theorem C10_lossless_readback_partial (log2 : Log2) (ts : List Int) (vs : List Nat)
    (hlen : ts.length = vs.length) (hne : ts ≠ []) (hrange : ∀ t ∈ ts, IsI64 t) (hinc : StrictlyIncreasing ts)
    (hsize : ts.length < 2 ^ 63) (h32 : ∀ v ∈ vs, v < 2 ^ 32)
    (hnonan : ∀ v ∈ vs, (FVal.ofBits32 v).isNan = false)
    (hlinear : LinearFaithful SameFloat .lossless ts vs) :
    ∃ segments ws, tryCompressUnivariate log2 .lossless ts vs = .segments segments ∧
      gridAll segments = some (ts, ws) ∧ List.Forall₂ SameFloat vs ws := by
  obtain ⟨h1, h2, h3, h4⟩ := sameFloat_conditions log2 vs
  exact readback SameFloat log2 .lossless ts vs h1 h2 h3 h4 hlen hne hrange hinc hsize h32 hnonan hlinear

/-- If no linear model is kept nothing is required of them. -/
theorem linearFaithful_of_none {R : Nat → Nat → Prop} {eb : ErrorBound} {ts : List Int} {vs : List Nat}
    (h : ∀ i < ts.length, (fitNextModel i eb ts vs).bytesPerValue.le (.fin false 4) = true →
      (fitNextModel i eb ts vs).modelType ≠ .swing) : LinearFaithful R eb ts vs := by
  intro i hi sw hm hkept
  exact absurd (by rw [hm]; rfl) (h i hi hkept)

/-- **C10** without linear models: the only remaining condition is that the series has no NaN. -/
theorem C10_lossless_readback_no_linear_partial (log2 : Log2) (ts : List Int) (vs : List Nat)
    (hlen : ts.length = vs.length) (hne : ts ≠ []) (hrange : ∀ t ∈ ts, IsI64 t) (hinc : StrictlyIncreasing ts)
    (hsize : ts.length < 2 ^ 63) (h32 : ∀ v ∈ vs, v < 2 ^ 32)
    (hnonan : ∀ v ∈ vs, (FVal.ofBits32 v).isNan = false)
    (hnolinear : ∀ i < ts.length, (fitNextModel i .lossless ts vs).bytesPerValue.le (.fin false 4) = true →
      (fitNextModel i .lossless ts vs).modelType ≠ .swing) :
    ∃ segments ws, tryCompressUnivariate log2 .lossless ts vs = .segments segments ∧
      gridAll segments = some (ts, ws) ∧ List.Forall₂ SameFloat vs ws :=
  C10_lossless_readback_partial log2 ts vs hlen hne hrange hinc hsize h32 hnonan (linearFaithful_of_none hnolinear)

/-- Ten points on the line `2 x + 1`, one point off the line, an infinity and three equal values. -/
def lineSeries : List Int × List Nat :=
  ([0, 1, 2, 3, 4, 5, 6, 7, 8, 9, 10, 12, 13, 15, 16],
   [0x3f800000, 0x40400000, 0x40a00000, 0x40e00000, 0x41100000, 0x41300000, 0x41500000, 0x41700000, 0x41880000,
    0x41980000, 0x40000000, 0xff800000, 0x40000000, 0x40000000, 0x40000000])

/-- Executable form of `LinearFaithful`: the linear model that accepts the chosen run is examined. -/
def linearFaithfulCheck (R : Nat → Nat → Prop) [DecidableRel R] (eb : ErrorBound) (ts : List Int) (vs : List Nat) : Bool :=
  (List.range ts.length).all fun i =>
    (fitNextModel i eb ts vs).modelType != .swing || !(fitNextModel i eb ts vs).bytesPerValue.le (.fin false 4) ||
    let e := (fitNextModel i eb ts vs).endIndex
    match acceptAll (swingStep f64Ops) (Swing.new eb)
        (((sliceIncl ts i e).zip (sliceIncl vs i e)).map fun p => (p.1, FVal.ofBits32 p.2)) with
    | none => true
    | some sw =>
      match ts[i]?, ts[e]? with
      | some startTime, some endTime =>
        let w := (swingGrid f64Ops startTime endTime (sw.model f64Ops).1 (sw.model f64Ops).2 (sliceIncl ts i e)).map
          FVal.toBits32
        ((sliceIncl vs i e).zip w).all (fun p => decide (R p.1 p.2)) && w.length == (sliceIncl vs i e).length &&
          w.getLast? == some (sw.model f64Ops).2.toBits32
      | _, _ => true

theorem linearFaithful_of_check {R : Nat → Nat → Prop} [DecidableRel R] {eb : ErrorBound} {ts : List Int} {vs : List Nat}
    (h : linearFaithfulCheck R eb ts vs = true) : LinearFaithful R eb ts vs := by
  intro i hi sw hm hkept hacc t0 t1 h0 h1
  have h2 := List.all_eq_true.mp h i (List.mem_range.mpr hi)
  have hty : (fitNextModel i eb ts vs).modelType = .swing := by rw [hm]; rfl
  have hend : (fitNextModel i eb ts vs).endIndex = i + sw.length - 1 := by rw [hm]; rfl
  rw [hty, hend, hkept] at h2
  simp only [bne_self_eq_false, Bool.false_or, Bool.not_true] at h2
  rw [hacc, h0, h1] at h2
  simp only [Bool.and_eq_true, List.all_eq_true, beq_iff_eq, decide_eq_true_eq] at h2
  obtain ⟨⟨h3, h4⟩, h5⟩ := h2
  refine ⟨List.forall₂_iff_zip.mpr ⟨h4.symm, fun {a b} hab => h3 (a, b) hab⟩, h5⟩

example : LinearFaithful SameFloat .lossless lineSeries.1 lineSeries.2 :=
  linearFaithful_of_check (by decide +kernel)

example : (fitNextModel 0 .lossless lineSeries.1 lineSeries.2).modelType = .swing ∧
    (fitNextModel 0 .lossless lineSeries.1 lineSeries.2).endIndex = 9 := by decide +kernel

/-- **C10** is false of the code for series with NaN: eight NaN followed by `1` read back as eight `1`
followed by NaN. -/
theorem C10_nan_not_read_back :
    ∃ segments ws, tryCompressUnivariate exactLog2 .lossless nanSeries.1 nanSeries.2 = .segments segments ∧
      gridAll segments = some (nanSeries.1, ws) ∧ ¬ List.Forall₂ SameFloat nanSeries.2 ws := by
  refine ⟨[⟨.pmcMean, 0, 8, [9], 0x3f800000, 0x3f800000, [], [194, 76, 4, 1]⟩],
    List.replicate 8 0x3f800000 ++ [0x7fc00000], ?_, ?_, ?_⟩ <;> decide +kernel

/-- **C10** is false of the code also without NaN because the arithmetic of linear models is rounded: of
the eight points of `roundingPoints` the second and others are read back changed. -/
theorem C10_line_not_read_back :
    ∃ segments ws, tryCompressUnivariate exactLog2 .lossless (roundingPoints.map Prod.fst) (roundingPoints.map Prod.snd) =
        .segments segments ∧
      gridAll segments = some (roundingPoints.map Prod.fst, ws) ∧
      ¬ List.Forall₂ SameFloat (roundingPoints.map Prod.snd) ws := by
  refine ⟨[⟨.swing, 1600000000000, 1600000000049, [8], 0, 1075139926, [], []⟩],
    [0, 1051372032, 1059760896, 1065353216, 1068149376, 1070945664, 1073741824, 1075139904], ?_, ?_, ?_⟩ <;>
    decide +kernel

end ModelarDB.Props
