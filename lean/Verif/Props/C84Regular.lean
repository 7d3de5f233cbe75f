import Verif.Props.C84
import Verif.Lemmas.LinearSums
/-
C84 for SUM and AVG of series with regular timestamps: the hypotheses are about the ingested series only.
-/
namespace ModelarDB.Props
open Model Model.Aggregates Spec Lemmas

/-- A series of at most `n` points with one interval between its timestamps and without negative zeros, for which the rounding of linear models is at
most `e`. -/
structure RegularSeries (eb : ErrorBound) (n : Nat) (e : ℚ) (p : Series) : Prop where
  interval : ∃ d, p.1.IsChain fun t u => u - t = d
  zero : ∀ v ∈ p.2, v ≠ 0x80000000
  size : p.1.length ≤ n
  numeric : ∃ M T D, NumericSeries eb p.1 p.2 M T D ∧ linearError M T D ≤ e ∧ (p.1.length : ℚ) * (M + M * T / D) ≤ 2 ^ 120

/-- How far the sum of the values that are read from a segment may be from its exact sum. -/
def segmentError (n : Nat) (e : ℚ) (s : Segment) : ℚ :=
  8 * (valuesOf s).length * e + ((1 + 1 / 2 ^ 24) ^ (n + 3) - 1) * exactAbsSum (valuesOf s)

/-- The sums of the segments of such series. -/
theorem regular_sums {log2 : Log2} {eb : ErrorBound} {series : List Series} {partitions : List (List Segment)}
    (h : StoredAs log2 eb series partitions) {n : Nat} (hn : n ≤ 2 ^ 24) {e : ℚ} (he : 0 ≤ e) (hregular : ∀ p ∈ series, RegularSeries eb n e p)
    {times : List Int} {values : List Nat} (hread : gridAll partitions.flatten = some (times, values))
    (hfinite : ∀ v ∈ values, (FVal.ofBits32 v).isFinite = true) :
    ∀ s ∈ partitions.flatten, ∃ sum, segmentSum s = some sum ∧
      ∀ ts ws, grid s = some (ts, ws) → sum.isFinite = true → |valueOf sum - exactSum ws| ≤ segmentError n e s := by
  intro s hs
  obtain ⟨hv, hg⟩ := gridAll_values hread
  obtain ⟨ts, hts⟩ := hg s hs
  obtain ⟨p, hp, segments, h1, h2⟩ := stored_produced h s hs
  have w := h.within p hp
  have r := hregular p hp
  have hprod : ProducedFrom s p.2 := ⟨log2, eb, p.1, segments, h.bound.1, w.length, w.nonempty, w.range, w.increasing, w.size, w.bits, h1, h2⟩
  have hpow : ∀ m, m ≤ n + 3 → ((1 + 1 / 2 ^ 24 : ℚ) ^ m - 1) * exactAbsSum (valuesOf s) ≤
      ((1 + 1 / 2 ^ 24) ^ (n + 3) - 1) * exactAbsSum (valuesOf s) := fun m hm =>
    mul_le_mul_of_nonneg_right (sub_le_sub_right (pow_le_pow_right₀ (by norm_num) hm) _) (exactAbsSum_nonneg _)
  have hfit := goodFit_fitNextModel eb p.1 p.2 w.length
  obtain ⟨segments', hseg', hchain⟩ := tryCompressWith_chain (log2 := log2) (eb := eb) hfit w.nonempty w.length
  have hsame : segments = segments' := by
    have := h1.symm.trans hseg'
    injection this
  subst hsame
  obtain ⟨a, b, hpiece⟩ := chain_mem hchain h2
  obtain ⟨e', k1, k2⟩ : ∃ e', SumErrorOf s ts (valuesOf s) e' ∧ e' ≤ segmentError n e s := by
    by_cases hty : s.modelType = .swing
    · rcases hpiece with ⟨ha, hab, hres, hb, hf, hkept⟩ | ⟨hab, hb, hf⟩
      · obtain ⟨M, T, D, hnum, hle, hbig⟩ := r.numeric
        obtain ⟨d, hd⟩ := r.interval
        obtain ⟨e', k1, k2⟩ := linear_piece_within hnum hd (le_trans r.size hn) hbig hfit ha hab hres hb hf hkept hty hts r.zero w.linear
        refine ⟨e', Or.inr ⟨hty, k1⟩, k2.trans ?_⟩
        have c1 := hpow (p.1.length + 3) (by have := r.size; omega)
        have c2 := mul_le_mul_of_nonneg_left hle (show (0 : ℚ) ≤ 8 * (valuesOf s).length by positivity)
        unfold segmentError
        linarith
      · exfalso
        unfold compressResidualsInSeparateSegment at hf
        rw [List.getElem?_eq_getElem (by omega), List.getElem?_eq_getElem hb] at hf
        injection hf with hf
        rw [← hf] at hty
        exact ModelType.noConfusion hty
    · refine ⟨_, Or.inl ⟨hty, rfl⟩, ?_⟩
      have hlen : (valuesOf s).length ≤ n := by
        obtain ⟨hab, hb, h3, h4, h5⟩ := piece_times hfit hpiece
        obtain ⟨g1, g2⟩ := grid_length hts
        rw [h3, h4, h5, (slice_timestamps w.range w.increasing w.size hab hb).1] at g1
        rw [g2, ← Option.some.inj g1, sliceIncl_length _ hb]
        have := r.size
        omega
      have c1 := hpow ((valuesOf s).length + 3) (by omega)
      have c2 : 0 ≤ 8 * ((valuesOf s).length : ℚ) * e := by positivity
      unfold segmentError
      linarith
  obtain ⟨sum, h3, h4⟩ := sum_of_error hprod hts (fun x hx => hfinite x (by rw [hv]; exact List.mem_flatMap.mpr ⟨s, hs, hx⟩)) k1
  refine ⟨sum, h3, fun ts' ws' hg' hfin => ?_⟩
  obtain ⟨_, rfl⟩ := Prod.mk.inj (Option.some.inj (hts.symm.trans hg'))
  exact (h4 hfin).trans k2

theorem segmentError_sum (n : Nat) (e : ℚ) (l : List Segment) :
    (l.map (segmentError n e)).sum = 8 * (l.flatMap valuesOf).length * e + ((1 + 1 / 2 ^ 24) ^ (n + 3) - 1) * exactAbsSum (l.flatMap valuesOf) := by
  induction l with
  | nil => simp [exactAbsSum]
  | cons s l ih =>
    rw [List.map_cons, List.sum_cons, ih, List.flatMap_cons, List.length_append]
    have : exactAbsSum (valuesOf s ++ l.flatMap valuesOf) = exactAbsSum (valuesOf s) + exactAbsSum (l.flatMap valuesOf) := by
      simp [exactAbsSum]
    rw [this]
    unfold segmentError
    push_cast
    ring

/-- How far SUM may be from the sum of the stored values: `count` values with the magnitude `magnitude` in `segments` segments and `partitions`
partitions, of series of at most `n` points. The sums of the segments are computed with `f32`, they are added with `f64`. -/
def roundingOfSum (segments partitions n count : Nat) (e magnitude : ℚ) : ℚ :=
  sumError segments partitions (8 * count * e + ((1 + 1 / 2 ^ 24) ^ (n + 3) - 1) * magnitude) magnitude

theorem sumError_mono_left {a b : Nat} {e e' m : ℚ} (h : e ≤ e') : sumError a b e m ≤ sumError a b e' m := by
  unfold sumError
  have : (0 : ℚ) ≤ (1 + 1 / 2 ^ 53) ^ (1 + a + b) - 1 := by
    have : (1 : ℚ) ≤ (1 + 1 / 2 ^ 53) ^ (1 + a + b) := one_le_pow₀ (by norm_num)
    linarith
  have := mul_le_mul_of_nonneg_left (show m + e ≤ m + e' by linarith) this
  linarith

theorem sumError_regular {a b n count : Nat} {e m m' : ℚ} (h : m ≤ m') :
    sumError a b (8 * count * e + ((1 + 1 / 2 ^ 24) ^ (n + 3) - 1) * m) m ≤ roundingOfSum a b n count e m' := by
  have h0 : (0 : ℚ) ≤ (1 + 1 / 2 ^ 24) ^ (n + 3) - 1 := by
    have : (1 : ℚ) ≤ (1 + 1 / 2 ^ 24) ^ (n + 3) := one_le_pow₀ (by norm_num)
    linarith
  have := mul_le_mul_of_nonneg_left h h0
  exact (sumError_mono h).trans (sumError_mono_left (by linarith))

/-- **C84** for SUM of series with regular timestamps: it is the sum of the ingested values up to the error bound and the rounding. -/
theorem C84_sum_regular_partial (log2 : Log2) (eb : ErrorBound) (series : List Series) (partitions : List (List Segment))
    (h : StoredAs log2 eb series partitions) (hne : series ≠ []) (n : Nat) (hn : n ≤ 2 ^ 24) (e : ℚ) (he : 0 ≤ e)
    (hregular : ∀ p ∈ series, RegularSeries eb n e p) :
    ∃ x, execute .sum partitions = some (.f64 x) ∧ (x.isFinite = true →
      |numberOf x - total (ingestedValues series)| ≤ totalDeviation eb (ingestedValues series) +
        roundingOfSum partitions.flatten.length partitions.length n (ingestedValues series).length e
          (totalAbs (ingestedValues series) + totalDeviation eb (ingestedValues series))) := by
  obtain ⟨times, values, h1, h2, h3, h4, h5, h6⟩ := stored_totals h hne
  obtain ⟨x, k1, k2⟩ := C38_sum_errors_partial partitions _ times values h1 h2 (regular_sums h hn he hregular h1 h4)
  refine ⟨x, k1, fun hx => ?_⟩
  have k := k2 hx
  rw [segmentError_sum, ← (gridAll_values h1).1, ← (total_eq values).2, h3] at k
  have a := abs_le.mp (k.trans (sumError_regular h6))
  have b := abs_le.mp h5
  exact abs_le.mpr ⟨by linarith, by linarith⟩

/-- **C84** for AVG of series with regular timestamps: it is the average of the ingested values up to the average of the deviations that the error
bound allows and the rounding. -/
theorem C84_avg_regular_partial (log2 : Log2) (eb : ErrorBound) (series : List Series) (partitions : List (List Segment))
    (h : StoredAs log2 eb series partitions) (hne : series ≠ []) (hsize : (ingestedValues series).length ≤ 2 ^ 53) (n : Nat) (hn : n ≤ 2 ^ 24)
    (e : ℚ) (he : 0 ≤ e) (hregular : ∀ p ∈ series, RegularSeries eb n e p) :
    ∃ x, execute .avg partitions = some (.f64 x) ∧ (x.isFinite = true →
      |numberOf x - total (ingestedValues series) / (ingestedValues series).length| ≤
        totalDeviation eb (ingestedValues series) / (ingestedValues series).length +
        roundingOfSum partitions.flatten.length (partitions.length + 1) n (ingestedValues series).length e
          (totalAbs (ingestedValues series) + totalDeviation eb (ingestedValues series)) / (ingestedValues series).length) := by
  obtain ⟨times, values, h1, h2, h3, h4, h5, h6⟩ := stored_totals h hne
  obtain ⟨x, k1, k2⟩ := C38_avg_errors_partial partitions _ times values h1 h2 (by rw [h3]; exact hsize) (stored_producedFrom h)
    (regular_sums h hn he hregular h1 h4)
  refine ⟨x, k1, fun hx => ?_⟩
  have k := k2 hx
  rw [segmentError_sum, ← (gridAll_values h1).1, ← (total_eq values).2, h3] at k
  have hc : (0 : ℚ) ≤ ((ingestedValues series).length : ℚ) := Nat.cast_nonneg _
  have a := abs_le.mp (k.trans (div_le_div_of_nonneg_right (sumError_regular h6) hc))
  have b := abs_le.mp h5
  have b1 := div_le_div_of_nonneg_right b.1 hc
  have b2 := div_le_div_of_nonneg_right b.2 hc
  rw [sub_div] at b1 b2
  rw [neg_div] at b1
  exact abs_le.mpr ⟨by linarith, by linarith⟩

theorem minuteSeries_regular : RegularSeries (.absolute (.fin false (1 / 4))) 12 (1 / 10000) minuteSeries where
  interval := ⟨60000, by decide +kernel⟩
  zero := by decide
  size := by decide
  numeric := ⟨128, 1600000660000, 60000, ⟨quarter_proved.1, rfl, by decide, by decide +kernel, by unfold StrictlyIncreasing; decide +kernel, by decide,
      by decide, by decide +kernel, by decide +kernel, by decide +kernel, by decide +kernel, by norm_num, by norm_num, by decide +kernel⟩,
      by unfold linearError; norm_num, by rw [show minuteSeries.1.length = 12 from rfl]; norm_num⟩

theorem closeSeries_regular : RegularSeries (.absolute (.fin false (1 / 4))) 12 (1 / 10000) closeSeries where
  interval := ⟨100, by decide +kernel⟩
  zero := by decide
  size := by decide
  numeric := ⟨16, 300, 100, ⟨quarter_proved.1, rfl, by decide, by decide +kernel, by unfold StrictlyIncreasing; decide +kernel, by decide,
      by decide, by decide +kernel, by decide +kernel, by decide +kernel, by decide +kernel, by norm_num, by norm_num, by decide +kernel⟩,
      by unfold linearError; norm_num, by rw [show closeSeries.1.length = 3 from rfl]; norm_num⟩

/-- For the table of `example_stored`, SUM is `1259.51...`, the ingested values sum to `1259.71875`, the error bound allows `3.75` and the rounding
adds less than `0.03`. -/
example : (∀ p ∈ [minuteSeries, closeSeries], RegularSeries (.absolute (.fin false (1 / 4))) 12 (1 / 10000) p) ∧
    roundingOfSum 2 2 12 15 (1 / 10000) (totalAbs (ingestedValues [minuteSeries, closeSeries]) +
      totalDeviation (.absolute (.fin false (1 / 4))) (ingestedValues [minuteSeries, closeSeries])) < 3 / 100 := by
  refine ⟨fun p hp => ?_, by decide +kernel⟩
  rcases List.mem_pair.mp hp with rfl | rfl
  · exact minuteSeries_regular
  · exact closeSeries_regular

/-- A series with regular timestamps that begins with a negative zero, and its segment for the absolute error bound `1`: a line from `-0` to `0` and
a residual. -/
def negativeZeroSeries : Series :=
  ([100, 200, 300, 400, 500, 600, 700, 800, 900, 1000, 1100],
   [0x80000000, 0x3f600000, 0x3f600000, 0x3f600000, 0x3f600000, 0x3f600000, 0xbf600000, 0xbf600000, 0xbde00000, 0, 0x42480000])

def negativeZeroSegment : Segment :=
  ⟨.swing, 100, 1100, [11], 0x80000000, 0x42480000, [3, 0, 0, 0, 128], [194, 100, 36, 128, 1]⟩

/-- The condition about negative zeros cannot be omitted: for this series SUM is `-50`, although every value is read within the error bound, the
ingested values sum to `52.515625` and the error bound allows a deviation of `11`. The line is stored as one from `-0` to `-0`, so the residual that
follows the last value `0` is read with the wrong sign when it is summed. It is assumed that `f32::max` of a negative and a positive zero is its
first argument, Rust allows either. -/
theorem C84_sum_negative_zero_wrong :
    tryCompressUnivariate exactLog2 (.absolute (.fin false 1)) negativeZeroSeries.1 negativeZeroSeries.2 = .segments [negativeZeroSegment] ∧
    gridAll [negativeZeroSegment] = some (negativeZeroSeries.1, List.replicate 10 0 ++ [0x42480000]) ∧
    total (ingestedValues [negativeZeroSeries]) = 3361 / 64 ∧
    totalDeviation (.absolute (.fin false 1)) (ingestedValues [negativeZeroSeries]) = 11 * (1 + 1 / 2 ^ 22) ∧
    execute .sum [[negativeZeroSegment]] = some (.f64 (.fin true 50)) :=
  ⟨by decide +kernel, by decide +kernel, by decide +kernel, by decide +kernel, by decide +kernel⟩

end ModelarDB.Props
