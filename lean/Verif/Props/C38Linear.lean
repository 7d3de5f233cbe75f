import Verif.Lemmas.AggregateSums
import Verif.Props.C38
/-
C38 for tables with segments whose sums have known errors, which includes linear models.
-/
namespace ModelarDB.Props
open Model Spec Lemmas Model.Aggregates

/-- The error of a sum: the errors of the sums of the segments and the roundings when these are added. -/
def sumError (segments : Nat) (partitions : Nat) (errors magnitudes : ℚ) : ℚ :=
  errors + ((1 + 1 / 2 ^ 53) ^ (1 + segments + partitions) - 1) * (magnitudes + errors)

theorem sum_error_total {r S P A B E g : ℚ} (h1 : |r - S| ≤ (g - 1) * B) (h2 : |S - P| ≤ E) (h3 : B ≤ A + E) (hg : 1 ≤ g) :
    |r - P| ≤ E + (g - 1) * (A + E) := by
  have h4 : (g - 1) * B ≤ (g - 1) * (A + E) := mul_le_mul_of_nonneg_left h3 (by linarith)
  obtain ⟨a1, a2⟩ := abs_le.mp h1
  obtain ⟨b1, b2⟩ := abs_le.mp h2
  exact abs_le.mpr ⟨by linarith, by linarith⟩

theorem sumOf_near {s : Segment} {e : ℚ} (h : ∃ sum, segmentSum s = some sum ∧ (sum.isFinite = true → |valueOf sum - exactSum (valuesOf s)| ≤ e))
    (hfin : ∃ y, segmentSum s = some y ∧ y.isFinite = true) : |sumOf s - exactSum (valuesOf s)| ≤ e := by
  obtain ⟨sum, h1, h2⟩ := h
  obtain ⟨y, h3, h4⟩ := hfin
  have : sum = y := Option.some.inj (h1.symm.trans h3)
  subst this
  unfold sumOf
  rw [h1]
  exact h2 h4

/-- SUM of segments of any models whose own sums have the errors `e`: the result is within these errors and the rounding of the addition of the
sums of the segments of the sum of the rows, in whatever order and however the segments are distributed. -/
theorem C38_sum_errors_partial (partitions : List (List Segment)) (e : Segment → ℚ) (times : List Int) (values : List Nat)
    (hread : gridAll partitions.flatten = some (times, values)) (hne : values ≠ [])
    (hsegments : ∀ s ∈ partitions.flatten, ∃ sum, segmentSum s = some sum ∧
      ∀ ts ws, grid s = some (ts, ws) → sum.isFinite = true → |valueOf sum - exactSum ws| ≤ e s) :
    ∃ x, execute .sum partitions = some (.f64 x) ∧ (x.isFinite = true →
      |numberOf x - total (values.map FVal.ofBits32)| ≤
        sumError partitions.flatten.length partitions.length (partitions.flatten.map e).sum (totalAbs (values.map FVal.ofBits32))) := by
  obtain ⟨hv, hg⟩ := gridAll_values hread
  obtain ⟨x, ⟨states, h1, h2, h3⟩, _, h4⟩ := merged_sumOf (fun s hs => (hsegments s hs).imp fun _ h => h.1) (partitions_ne_nil hv hne)
  obtain ⟨st, rest, rfl⟩ := List.exists_cons_of_ne_nil h2
  refine ⟨x, by rw [execute, h1]; dsimp only; rw [h3], fun hfin => ?_⟩
  obtain ⟨hall, _, r, hr, he⟩ := h4 hfin
  obtain ⟨k1, k2⟩ := sums_near e partitions.flatten fun s hs => by
    obtain ⟨ts, hts⟩ := hg s hs
    obtain ⟨sum, h5, h6⟩ := hsegments s hs
    exact sumOf_near ⟨sum, h5, h6 ts _ hts⟩ (hall s hs)
  rw [← hv, ← (total_eq values).1] at k1
  rw [← hv, ← (total_eq values).2] at k2
  obtain ⟨⟨s, q, rfl, rfl⟩, _⟩ := hr
  have := sum_error_total he k1 k2 (one_le_pow₀ (by linarith [unit64_pos]))
  rw [unit64_eq] at this
  exact this

/-- AVG of segments of any models whose own sums have the errors `e`, with the rounding of the division. -/
theorem C38_avg_errors_partial (partitions : List (List Segment)) (e : Segment → ℚ) (times : List Int) (values : List Nat)
    (hread : gridAll partitions.flatten = some (times, values)) (hne : values ≠ []) (hsize : values.length ≤ 2 ^ 53)
    (hprod : ∀ s ∈ partitions.flatten, ∃ vs, ProducedFrom s vs)
    (hsegments : ∀ s ∈ partitions.flatten, ∃ sum, segmentSum s = some sum ∧
      ∀ ts ws, grid s = some (ts, ws) → sum.isFinite = true → |valueOf sum - exactSum ws| ≤ e s) :
    ∃ x, execute .avg partitions = some (.f64 x) ∧ (x.isFinite = true →
      |numberOf x - total (values.map FVal.ofBits32) / values.length| ≤
        sumError partitions.flatten.length (partitions.length + 1) (partitions.flatten.map e).sum (totalAbs (values.map FVal.ofBits32)) /
          values.length) := by
  obtain ⟨hv, hl⟩ := produced_values hread hprod
  obtain ⟨_, hg⟩ := gridAll_values hread
  obtain ⟨x, ⟨states, h1, h2, h3⟩, hmag, h4⟩ := merged_sumOf (fun s hs => (hsegments s hs).imp fun _ h => h.1) (partitions_ne_nil hv hne)
  obtain ⟨st, rest, rfl⟩ := List.exists_cons_of_ne_nil h2
  have hsize' : 0 + (partitions.map fun p => (p.flatMap valuesOf).length).sum < 2 ^ 63 := by
    rw [sum_lengths, ← hv]; omega
  have hstate : ∀ p ∈ partitions, avgCountState 0 p = some (p.flatMap valuesOf).length := by
    intro p hp
    have hle : (p.flatMap valuesOf).length ≤ (partitions.map fun p => (p.flatMap valuesOf).length).sum :=
      List.le_sum_of_mem (List.mem_map.mpr ⟨p, hp, rfl⟩)
    have := avgCountState_eq p (fun s hs => (hl s (List.mem_flatten_of_mem hp hs)).1) 0 (by omega)
    simpa using this
  have hcount := foldl_avgCount (fun p => (p.flatMap valuesOf).length) partitions 0 hsize'
  rw [sum_lengths, ← hv, Nat.zero_add] at hcount
  refine ⟨_, by rw [execute, h1, mapAll_some hstate], fun hfin => ?_⟩
  rw [hcount, h3] at hfin ⊢
  have hpos : 0 < values.length := List.length_pos_iff.mpr hne
  rw [ofInt64_exact hpos hsize] at hfin ⊢
  have hxf : x.isFinite = true := by
    cases x with
    | nan => cases hfin
    | inf s => cases hfin
    | fin s q => rfl
  obtain ⟨hall, hP, r, hr, he⟩ := h4 hxf
  obtain ⟨s, q, hres, hq⟩ := div64_near hr hmag hpos hsize hfin
  have hn : (0 : ℚ) < values.length := by exact_mod_cast hpos
  obtain ⟨k1, k2⟩ := sums_near e partitions.flatten fun s hs => by
    obtain ⟨ts, hts⟩ := hg s hs
    obtain ⟨sum, h5, h6⟩ := hsegments s hs
    exact sumOf_near ⟨sum, h5, h6 ts _ hts⟩ (hall s hs)
  rw [← hv, ← (total_eq values).1] at k1
  rw [← hv, ← (total_eq values).2] at k2
  have hstep : |ratOf s q * values.length - (partitions.flatten.map sumOf).sum| ≤
      ((1 + unit64) ^ (1 + partitions.flatten.length + partitions.length) * (1 + unit64) - 1) *
        (partitions.flatten.map fun s => |sumOf s|).sum := by
    refine near_step (p := r) hP he ?_
    have e1 : ratOf s q * values.length - r = (ratOf s q - r / values.length) * values.length := by
      rw [sub_mul, div_mul_cancel₀ _ hn.ne']
    have e2 : |r| * unit64 = |r / values.length| * unit64 * values.length := by
      rw [_root_.abs_div, abs_of_pos hn]
      field_simp
    rw [e1, abs_mul, abs_of_pos hn, e2]
    exact mul_le_mul_of_nonneg_right hq hn.le
  rw [← pow_succ] at hstep
  have := sum_error_total hstep k1 k2 (one_le_pow₀ (by linarith [unit64_pos]))
  rw [unit64_eq] at this
  rw [hres]
  show |ratOf s q - _| ≤ _
  rw [le_div_iff₀ hn]
  calc |ratOf s q - total (values.map FVal.ofBits32) / values.length| * values.length
      = |ratOf s q * values.length - total (values.map FVal.ofBits32)| := by
        rw [← abs_of_pos hn, ← abs_mul, abs_of_pos hn, sub_mul, div_mul_cancel₀ _ hn.ne']
    _ ≤ _ := this

/-- The timestamps of a segment that the compression produces. -/
theorem produced_times {s : Segment} {vs : List Nat} (h : ProducedFrom s vs) {ts : List Int} {ws : List Nat} (hg : grid s = some (ts, ws)) :
    ∃ hne : ts ≠ [], (∀ t ∈ ts, IsI64 t) ∧ StrictlyIncreasing ts ∧ s.startTime = ts.head hne ∧ s.endTime = ts.getLast hne ∧
      s.timestamps = compressResidualTimestamps ts := by
  obtain ⟨log2, eb, ts', a, b, hp, hrange, hinc, hsize, hlen⟩ := produced_piece h
  obtain ⟨hab, hb, h1, h2, h3⟩ := piece_times (goodFit_fitNextModel eb ts' vs hlen) hp
  obtain ⟨k1, k2⟩ := slice_timestamps hrange hinc hsize hab hb
  have := (grid_length hg).1
  rw [h1, h2, h3, k1] at this
  injection this with this
  subst this
  exact ⟨sliceIncl_ne_nil ts' hab hb, fun t ht => hrange t ((sliceIncl_sublist ts' a b).subset ht), hinc.sublist (sliceIncl_sublist ts' a b),
    by rw [h1, sliceIncl_head ts' hab hb], by rw [h2, sliceIncl_getLast ts' hab hb], h3⟩

/-- A segment with a linear model of values of at most `M` at timestamps of at most `T`, whose points are `ts` and `ws`, for which the error of the
sum is known: there are no residuals, or the timestamps are regular and the last value of the model is reconstructed exactly. `e` is the error. -/
def LinearWithin (s : Segment) (ts : List Int) (ws : List Nat) (e : ℚ) : Prop :=
  ∃ (n first last : Nat) (t0 tl t1 : Int) (M T X : ℚ),
    n + residualsLength s.residuals = ts.length ∧ 2 ≤ n ∧ ts.length ≤ 2 ^ 24 ∧
    ts[0]? = some t0 ∧ ts[n - 1]? = some tl ∧ ts[ts.length - 1]? = some t1 ∧ t1 - t0 < 2 ^ 63 ∧
    (s.residuals = [] ∨ areUncompressedTimestampsRegular ts = true ∧ ws[n - 1]? = some last) ∧
    decodeValuesForSwing s.minValue s.maxValue s.values = some (first, last) ∧
    (FVal.ofBits32 first).isFinite = true ∧ (FVal.ofBits32 last).isFinite = true ∧
    |valueOf (FVal.ofBits32 first)| ≤ M ∧ |valueOf (FVal.ofBits32 last)| ≤ M ∧ pow2 (-126) ≤ M ∧
    (∀ t ∈ ts, |(t : ℚ)| ≤ T) ∧ T ≤ 2 ^ 64 ∧ X = M * T / ((tl : ℚ) - t0) ∧ (ts.length : ℚ) * (M + X) ≤ 2 ^ 120 ∧
    e = 2 * n * (X * (1 / 2 ^ 44) + M * (1 / 2 ^ 20)) + ((1 + 1 / 2 ^ 24) ^ (residualsLength s.residuals + 1) - 1) * exactAbsSum ws

/-- A segment whose sum has the error `e`: one with a constant or lossless model, or a linear one that satisfies `LinearWithin`. -/
def SumErrorOf (s : Segment) (ts : List Int) (ws : List Nat) (e : ℚ) : Prop :=
  (s.modelType ≠ .swing ∧ e = ((1 + 1 / 2 ^ 24) ^ (ws.length + 3) - 1) * exactAbsSum ws) ∨ (s.modelType = .swing ∧ LinearWithin s ts ws e)

/-- The sums of these segments. -/
theorem sum_of_error {s : Segment} {vs : List Nat} (hp : ProducedFrom s vs) {ts : List Int} {ws : List Nat} (hg : grid s = some (ts, ws)) {e : ℚ}
    (hfinite : ∀ w ∈ ws, (FVal.ofBits32 w).isFinite = true) (h : SumErrorOf s ts ws e) :
    ∃ sum, segmentSum s = some sum ∧ (sum.isFinite = true → |valueOf sum - exactSum ws| ≤ e) := by
  rcases h with ⟨hty, rfl⟩ | ⟨hty, n, first, last, t0, tl, t1, M, T, X, hn, hn2, hsize, h0, hl, h1, hspan, hres, hdec, hf, hla, hfM, hlM, hM, hT,
    hT64, hX, hbig, rfl⟩
  · obtain ⟨hlen, hne, hsize⟩ := produced_length hp hg
    obtain ⟨x, hx, hmag⟩ := segmentSum_some hg hty (produced_xor hp) hlen
    refine ⟨x, hx, fun hfin => ?_⟩
    obtain ⟨r, hr, he⟩ := segmentSum_sumsTo s hty (produced_xor hp) ts ws hne hg hlen hsize hfinite x hx hfin
    rw [valueOf_is hr.is]
    refine he.trans (mul_le_mul_of_nonneg_right (sub_le_sub_right ?_ _) (exactAbsSum_nonneg ws))
    exact pow_le_pow_right₀ (by norm_num) (by omega)
  · obtain ⟨hne, hrange, hinc, hs, he, hts⟩ := produced_times hp hg
    have e0 : ts.head hne = t0 := by
      rw [List.head_eq_getElem]
      rw [List.getElem?_eq_getElem (by omega)] at h0
      exact Option.some.inj h0
    have e1 : ts.getLast hne = t1 := by
      rw [List.getLast_eq_getElem]
      rw [List.getElem?_eq_getElem (by omega)] at h1
      exact Option.some.inj h1
    have el : ts[n - 1]'(by omega) = tl := by
      rw [List.getElem?_eq_getElem (by omega)] at hl
      exact Option.some.inj hl
    obtain ⟨sum, k1, k2⟩ := C12_sum_linear_partial s hty ts hne hrange hinc hsize (by rw [e0, e1]; exact hspan) hs he hts _ n rfl hn hn2
      (hres.symm.imp And.left id) first last hdec hf hla M T X hfM hlM hM hT hT64 (by rw [e0, el]; exact hX) hbig ws hg hfinite
      (hres.imp id And.right)
    refine ⟨sum, k1, fun hfin => ?_⟩
    obtain ⟨S, hS, k3⟩ := k2 hfin
    rw [valueOf_is hS]
    exact k3

/-- The error of the sum of a segment that is read as `valuesOf s`. -/
theorem sums_of_errors {partitions : List (List Segment)} {times : List Int} {values : List Nat}
    (hread : gridAll partitions.flatten = some (times, values)) (hfinite : ∀ v ∈ values, (FVal.ofBits32 v).isFinite = true) {e : Segment → ℚ}
    (hsegments : ∀ s ∈ partitions.flatten, (∃ vs, ProducedFrom s vs) ∧ ∀ ts ws, grid s = some (ts, ws) → SumErrorOf s ts ws (e s)) :
    ∀ s ∈ partitions.flatten, ∃ sum, segmentSum s = some sum ∧
      ∀ ts ws, grid s = some (ts, ws) → sum.isFinite = true → |valueOf sum - exactSum ws| ≤ e s := by
  intro s hs
  obtain ⟨hv, hg⟩ := gridAll_values hread
  obtain ⟨ts, hts⟩ := hg s hs
  obtain ⟨⟨vs, hp⟩, hse⟩ := hsegments s hs
  obtain ⟨sum, h1, h2⟩ := sum_of_error hp hts (fun w hw => hfinite w (by rw [hv]; exact List.mem_flatMap.mpr ⟨s, hs, hw⟩)) (hse ts _ hts)
  refine ⟨sum, h1, fun ts' ws' hg' hfin => ?_⟩
  obtain ⟨_, rfl⟩ := Prod.mk.inj (Option.some.inj (hts.symm.trans hg'))
  exact h2 hfin

/-- SUM over a table whose segments have constant, lossless or linear models: the result is the sum of the rows up to the errors of the segments
and the rounding of their addition. -/
theorem C38_sum_linear_partial (partitions : List (List Segment)) (e : Segment → ℚ) (times : List Int) (values : List Nat)
    (hread : gridAll partitions.flatten = some (times, values)) (hne : values ≠ [])
    (hfinite : ∀ v ∈ values, (FVal.ofBits32 v).isFinite = true)
    (hsegments : ∀ s ∈ partitions.flatten, (∃ vs, ProducedFrom s vs) ∧ ∀ ts ws, grid s = some (ts, ws) → SumErrorOf s ts ws (e s)) :
    ∃ x, execute .sum partitions = some (.f64 x) ∧ (x.isFinite = true →
      |numberOf x - total (values.map FVal.ofBits32)| ≤
        sumError partitions.flatten.length partitions.length (partitions.flatten.map e).sum (totalAbs (values.map FVal.ofBits32))) :=
  C38_sum_errors_partial partitions e times values hread hne (sums_of_errors hread hfinite hsegments)

/-- AVG over a table whose segments have constant, lossless or linear models. -/
theorem C38_avg_linear_partial (partitions : List (List Segment)) (e : Segment → ℚ) (times : List Int) (values : List Nat)
    (hread : gridAll partitions.flatten = some (times, values)) (hne : values ≠ []) (hsize : values.length ≤ 2 ^ 53)
    (hfinite : ∀ v ∈ values, (FVal.ofBits32 v).isFinite = true)
    (hsegments : ∀ s ∈ partitions.flatten, (∃ vs, ProducedFrom s vs) ∧ ∀ ts ws, grid s = some (ts, ws) → SumErrorOf s ts ws (e s)) :
    ∃ x, execute .avg partitions = some (.f64 x) ∧ (x.isFinite = true →
      |numberOf x - total (values.map FVal.ofBits32) / values.length| ≤
        sumError partitions.flatten.length (partitions.length + 1) (partitions.flatten.map e).sum (totalAbs (values.map FVal.ofBits32)) /
          values.length) :=
  C38_avg_errors_partial partitions e times values hread hne hsize (fun s hs => (hsegments s hs).1) (sums_of_errors hread hfinite hsegments)

/-- The points of `regularSegment` and `constantSegment`. -/
def regularPoints : List Int × List Nat :=
  ([100, 200, 300, 400, 500, 600, 700, 800, 900, 1000, 1100],
   [0, 0x3f800000, 0x40000000, 0x40400000, 0x40800000, 0x40a00000, 0x40c00000, 0x40e00000, 0x41000000, 0x41100000, 0x40a00000])

theorem regularSegment_produced : ProducedFrom regularSegment regularPoints.2 :=
  ⟨exactLog2, .lossless, regularPoints.1, [regularSegment], .inl rfl, rfl, by decide, by decide +kernel, by unfold StrictlyIncreasing; decide +kernel,
    by decide, by decide +kernel, by decide +kernel, List.mem_singleton.mpr rfl⟩

/-- The linear segment satisfies the conditions. -/
theorem regularSegment_within : LinearWithin regularSegment regularPoints.1 regularPoints.2
    (2 * (10 : ℕ) * (10 * 1100 / ((1000 : ℤ) - (100 : ℤ)) * (1 / 2 ^ 44) + 10 * (1 / 2 ^ 20)) +
      ((1 + 1 / 2 ^ 24) ^ (residualsLength regularSegment.residuals + 1) - 1) * exactAbsSum regularPoints.2) :=
  ⟨10, 0, 0x41100000, 100, 1000, 1100, 10, 1100, 10 * 1100 / ((1000 : ℤ) - (100 : ℤ)), by decide +kernel, by decide, by decide, by decide, by decide,
    by decide, by decide, Or.inr ⟨by decide +kernel, by decide⟩, by decide +kernel, by decide +kernel, by decide +kernel, by decide +kernel,
    by decide +kernel, by decide +kernel, by decide +kernel, by decide +kernel, by norm_num, by decide +kernel, rfl⟩

/-- A table with a constant and a linear segment in two partitions: SUM is `66` and the error that `C38_sum_linear_partial` allows is small. -/
example : ∃ e : Segment → ℚ,
    (∀ s ∈ [[constantSegment], [regularSegment]].flatten, (∃ vs, ProducedFrom s vs) ∧ ∀ ts ws, grid s = some (ts, ws) → SumErrorOf s ts ws (e s)) ∧
    gridAll [[constantSegment], [regularSegment]].flatten = some ([0, 1, 2, 3, 4, 5, 6, 7, 8, 9] ++ regularPoints.1, exampleValues ++ regularPoints.2) ∧
    execute .sum [[constantSegment], [regularSegment]] = some (.f64 (.fin false 66)) ∧
    sumError 2 2 ([[constantSegment], [regularSegment]].flatten.map e).sum (totalAbs ((exampleValues ++ regularPoints.2).map FVal.ofBits32)) < 1 / 1000 := by
  refine ⟨fun s => if s.modelType = .swing then (2 * (10 : ℕ) * (10 * 1100 / ((1000 : ℤ) - (100 : ℤ)) * (1 / 2 ^ 44) + 10 * (1 / 2 ^ 20)) +
      ((1 + 1 / 2 ^ 24) ^ (residualsLength s.residuals + 1) - 1) * exactAbsSum (valuesOf s))
      else ((1 + 1 / 2 ^ 24) ^ ((valuesOf s).length + 3) - 1) * exactAbsSum (valuesOf s), ?_, by decide +kernel, by decide +kernel, ?_⟩
  · intro s hs
    rcases List.mem_pair.mp hs with rfl | rfl
    · refine ⟨⟨_, constantSegment_produced⟩, fun ts ws hg => Or.inl ⟨by decide, ?_⟩⟩
      dsimp only
      rw [← valuesOf_eq hg, if_neg (by decide)]
    · refine ⟨⟨_, regularSegment_produced⟩, fun ts ws hg => Or.inr ⟨rfl, ?_⟩⟩
      have hg' : grid regularSegment = some (regularPoints.1, regularPoints.2) := by decide +kernel
      have h := Option.some.inj (hg'.symm.trans hg)
      obtain ⟨rfl, rfl⟩ := Prod.mk.inj h
      dsimp only
      rw [if_pos (show regularSegment.modelType = .swing from rfl), valuesOf_eq hg']
      exact regularSegment_within
  · decide +kernel

end ModelarDB.Props
