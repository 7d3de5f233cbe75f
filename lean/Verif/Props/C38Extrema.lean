import Verif.Props.C13Linear
import Verif.Props.C38Linear
/-
C38: MIN and MAX of tables with linear models.
-/
namespace ModelarDB.Props
open Model Model.Aggregates Spec Lemmas

/-- MIN of segments whose minima are known up to an error: the result is that of the rows up to the largest error. -/
theorem C38_min_errors_partial (partitions : List (List Segment)) (e : ℚ) (times : List Int) (values : List Nat)
    (hread : gridAll partitions.flatten = some (times, values)) (hne : values ≠ [])
    (hmin : ∀ s ∈ partitions.flatten, ∀ ts ws, grid s = some (ts, ws) →
      MinimumWithin e (FVal.ofBits32 s.minValue) (ws.map FVal.ofBits32)) :
    ∃ m, execute .min partitions = some (.f32 m) ∧ MinimumWithin e m (values.map FVal.ofBits32) := by
  obtain ⟨hv, hg⟩ := gridAll_values hread
  have hs : ∀ s ∈ partitions.flatten, MinimumWithin e (FVal.ofBits32 s.minValue) ((valuesOf s).map FVal.ofBits32) := fun s hs => by
    obtain ⟨ts, hts⟩ := hg s hs
    exact hmin s hs ts _ hts
  have hone : ∀ s ∈ partitions.flatten, MinOf f32Max (FVal.ofBits32 s.minValue) [s.minValue] := fun s h =>
    ⟨finite_not_nan (hs s h).1, .inr ⟨_, by simp, rfl⟩, fun w hw => by rw [List.mem_singleton.mp hw]; exact flt_irrefl _⟩
  obtain ⟨m, hm, h1, h2, h3⟩ := mergeMin (f := fun s => [s.minValue]) partitions (partitions_ne_nil hv hne)
    fun p hp => minState_minOf p fun s hs => hone s (List.mem_flatten_of_mem hp hs)
  have hmem : ∀ s ∈ partitions.flatten, s.minValue ∈ partitions.flatten.flatMap fun s => [s.minValue] := fun s h =>
    List.mem_flatMap.mpr ⟨s, h, by simp⟩
  -- the minimum is that of a segment
  have hsome : ∃ s ∈ partitions.flatten, m.isFinite = true ∧ numberOf m = numberOf (FVal.ofBits32 s.minValue) := by
    rcases h2 with rfl | ⟨w, hw, rfl⟩
    · obtain ⟨v, rest, hvr⟩ := List.exists_cons_of_ne_nil hne
      have : v ∈ partitions.flatten.flatMap valuesOf := by rw [← hv, hvr]; simp
      obtain ⟨s, h, _⟩ := List.mem_flatMap.mp this
      have hf := (hs s h).1
      refine ⟨s, h, rfl, ?_⟩
      have hle := h3 _ (hmem s h)
      have hge : f32Max.lt (FVal.ofBits32 s.minValue) = false := largest_not_lt fun hc => by rw [hc] at hf; cases hf
      have a := (lt_iff_of_finite hf (show f32Max.isFinite = true from rfl)).not.mp (by rw [hle]; simp)
      have b := (lt_iff_of_finite (show f32Max.isFinite = true from rfl) hf).not.mp (by rw [hge]; simp)
      exact le_antisymm (not_lt.mp a) (not_lt.mp b)
    · obtain ⟨s, h, hw⟩ := List.mem_flatMap.mp hw
      rw [List.mem_singleton.mp hw]
      exact ⟨s, h, (hs s h).1, rfl⟩
  obtain ⟨s, hsm, hf, he⟩ := hsome
  refine ⟨m, by rw [← hm]; rfl, hf, ?_, fun x hx => ?_⟩
  · obtain ⟨x, hx, hxe⟩ := (hs s hsm).2.1
    obtain ⟨w, hw, rfl⟩ := List.mem_map.mp hx
    refine ⟨_, List.mem_map.mpr ⟨w, ?_, rfl⟩, by rw [he]; exact hxe⟩
    rw [hv]
    exact List.mem_flatMap.mpr ⟨s, hsm, hw⟩
  · obtain ⟨w, hw, rfl⟩ := List.mem_map.mp hx
    rw [hv] at hw
    obtain ⟨s', hs', hw⟩ := List.mem_flatMap.mp hw
    have a := (hs s' hs').2.2 _ (List.mem_map_of_mem hw)
    have b := (lt_iff_of_finite (hs s' hs').1 hf).not.mp (by rw [h3 _ (hmem s' hs')]; simp)
    linarith

/-- MAX of segments whose maxima are known up to an error. -/
theorem C38_max_errors_partial (partitions : List (List Segment)) (e : ℚ) (times : List Int) (values : List Nat)
    (hread : gridAll partitions.flatten = some (times, values)) (hne : values ≠ [])
    (hmax : ∀ s ∈ partitions.flatten, ∀ ts ws, grid s = some (ts, ws) →
      MaximumWithin e (FVal.ofBits32 s.maxValue) (ws.map FVal.ofBits32)) :
    ∃ m, execute .max partitions = some (.f32 m) ∧ MaximumWithin e m (values.map FVal.ofBits32) := by
  obtain ⟨hv, hg⟩ := gridAll_values hread
  have hs : ∀ s ∈ partitions.flatten, MaximumWithin e (FVal.ofBits32 s.maxValue) ((valuesOf s).map FVal.ofBits32) := fun s hs => by
    obtain ⟨ts, hts⟩ := hg s hs
    exact hmax s hs ts _ hts
  have hone : ∀ s ∈ partitions.flatten, MaxOf f32Min (FVal.ofBits32 s.maxValue) [s.maxValue] := fun s h =>
    ⟨finite_not_nan (hs s h).1, .inr ⟨_, by simp, rfl⟩, fun w hw => by rw [List.mem_singleton.mp hw]; exact flt_irrefl _⟩
  obtain ⟨m, hm, h1, h2, h3⟩ := mergeMax (f := fun s => [s.maxValue]) partitions (partitions_ne_nil hv hne)
    fun p hp => maxState_maxOf p fun s hs => hone s (List.mem_flatten_of_mem hp hs)
  have hmem : ∀ s ∈ partitions.flatten, s.maxValue ∈ partitions.flatten.flatMap fun s => [s.maxValue] := fun s h =>
    List.mem_flatMap.mpr ⟨s, h, by simp⟩
  have hsome : ∃ s ∈ partitions.flatten, m.isFinite = true ∧ numberOf m = numberOf (FVal.ofBits32 s.maxValue) := by
    rcases h2 with rfl | ⟨w, hw, rfl⟩
    · obtain ⟨v, rest, hvr⟩ := List.exists_cons_of_ne_nil hne
      have : v ∈ partitions.flatten.flatMap valuesOf := by rw [← hv, hvr]; simp
      obtain ⟨s, h, _⟩ := List.mem_flatMap.mp this
      have hf := (hs s h).1
      refine ⟨s, h, rfl, ?_⟩
      have hle := h3 _ (hmem s h)
      have hge : (FVal.ofBits32 s.maxValue).lt f32Min = false := smallest_not_lt fun hc => by rw [hc] at hf; cases hf
      have a := (lt_iff_of_finite (show f32Min.isFinite = true from rfl) hf).not.mp (by rw [hle]; simp)
      have b := (lt_iff_of_finite hf (show f32Min.isFinite = true from rfl)).not.mp (by rw [hge]; simp)
      exact le_antisymm (not_lt.mp b) (not_lt.mp a)
    · obtain ⟨s, h, hw⟩ := List.mem_flatMap.mp hw
      rw [List.mem_singleton.mp hw]
      exact ⟨s, h, (hs s h).1, rfl⟩
  obtain ⟨s, hsm, hf, he⟩ := hsome
  refine ⟨m, by rw [← hm]; rfl, hf, ?_, fun x hx => ?_⟩
  · obtain ⟨x, hx, hxe⟩ := (hs s hsm).2.1
    obtain ⟨w, hw, rfl⟩ := List.mem_map.mp hx
    refine ⟨_, List.mem_map.mpr ⟨w, ?_, rfl⟩, by rw [he]; exact hxe⟩
    rw [hv]
    exact List.mem_flatMap.mpr ⟨s, hsm, hw⟩
  · obtain ⟨w, hw, rfl⟩ := List.mem_map.mp hx
    rw [hv] at hw
    obtain ⟨s', hs', hw⟩ := List.mem_flatMap.mp hw
    have a := (hs s' hs').2.2 _ (List.mem_map_of_mem hw)
    have b := (lt_iff_of_finite hf (hs s' hs').1).not.mp (by rw [h3 _ (hmem s' hs')]; simp)
    linarith

/-- A segment of a series of finite numbers whose values are read with an error of at most `e`. -/
def ProducedWithin (e : ℚ) (s : Segment) : Prop :=
  ∃ (log2 : Log2) (eb : ErrorBound) (ts : List Int) (vs : List Nat) (segments : List Segment) (M T D : ℚ), NumericSeries eb ts vs M T D ∧
    linearError M T D ≤ e ∧ tryCompressUnivariate log2 eb ts vs = .segments segments ∧ s ∈ segments

theorem minimumWithin_mono {e e' : ℚ} {m : FVal} {xs : List FVal} (h : MinimumWithin e m xs) (he : e ≤ e') : MinimumWithin e' m xs :=
  ⟨h.1, h.2.1.imp fun _ hx => ⟨hx.1, hx.2.trans he⟩, fun x hx => by have := h.2.2 x hx; linarith⟩

theorem maximumWithin_mono {e e' : ℚ} {m : FVal} {xs : List FVal} (h : MaximumWithin e m xs) (he : e ≤ e') : MaximumWithin e' m xs :=
  ⟨h.1, h.2.1.imp fun _ hx => ⟨hx.1, hx.2.trans he⟩, fun x hx => by have := h.2.2 x hx; linarith⟩

theorem produced_within_extrema {e : ℚ} {s : Segment} (h : ProducedWithin e s) {ts : List Int} {ws : List Nat} (hg : grid s = some (ts, ws))
    (hf : FollowsModel s ws) (hw : ∀ w ∈ ws, (FVal.ofBits32 w).isFinite = true) :
    MinimumWithin e (FVal.ofBits32 s.minValue) (ws.map FVal.ofBits32) ∧ MaximumWithin e (FVal.ofBits32 s.maxValue) (ws.map FVal.ofBits32) := by
  obtain ⟨log2, eb, ts', vs, segments, M, T, D, hs, he, hseg, hm⟩ := h
  obtain ⟨segments', hseg', hall⟩ := C13_linear_rounding_partial log2 eb ts' vs M T D hs
  have hsame : segments = segments' := by
    have := hseg.symm.trans hseg'
    injection this
  subst hsame
  obtain ⟨h1, h2⟩ := hall s hm ts ws hg (.inl hf) hw
  exact ⟨minimumWithin_mono h1 he, maximumWithin_mono h2 he⟩

/-- MIN and MAX over a table with segments of any kind: the results are the minimum and the maximum of the rows up to the rounding of the linear
models, if all rows are finite. -/
theorem C38_min_max_linear_partial (partitions : List (List Segment)) (e : ℚ) (times : List Int) (values : List Nat)
    (hread : gridAll partitions.flatten = some (times, values)) (hne : values ≠ [])
    (hfinite : ∀ v ∈ values, (FVal.ofBits32 v).isFinite = true)
    (hsegments : ∀ s ∈ partitions.flatten, ProducedWithin e s ∧ ∀ ts ws, grid s = some (ts, ws) → FollowsModel s ws) :
    (∃ m, execute .min partitions = some (.f32 m) ∧ MinimumWithin e m (values.map FVal.ofBits32)) ∧
    ∃ m, execute .max partitions = some (.f32 m) ∧ MaximumWithin e m (values.map FVal.ofBits32) := by
  obtain ⟨hv, hg⟩ := gridAll_values hread
  have hboth : ∀ s ∈ partitions.flatten, ∀ ts ws, grid s = some (ts, ws) →
      MinimumWithin e (FVal.ofBits32 s.minValue) (ws.map FVal.ofBits32) ∧ MaximumWithin e (FVal.ofBits32 s.maxValue) (ws.map FVal.ofBits32) := by
    intro s hs ts ws hgs
    obtain ⟨hp, hf⟩ := hsegments s hs
    refine produced_within_extrema hp hgs (hf ts ws hgs) fun w hw => hfinite w ?_
    rw [hv]
    exact List.mem_flatMap.mpr ⟨s, hs, by rw [valuesOf_eq hgs]; exact hw⟩
  exact ⟨C38_min_errors_partial partitions e times values hread hne fun s hs ts ws hgs => (hboth s hs ts ws hgs).1,
    C38_max_errors_partial partitions e times values hread hne fun s hs ts ws hgs => (hboth s hs ts ws hgs).2⟩

theorem regularSeries_numeric : NumericSeries .lossless regularPoints.1 regularPoints.2 10 1100 100 where
  valid := Or.inl rfl
  length := rfl
  nonempty := by decide
  range := by decide +kernel
  increasing := by unfold StrictlyIncreasing; decide +kernel
  size := by decide
  bits := by decide
  finite := by decide +kernel
  value := by decide +kernel
  time := by decide +kernel
  apart := by decide +kernel
  positive := by norm_num
  limit := by norm_num
  last := by decide +kernel

/-- A table with the linear segment of `risingSeries`, whose minimum no row has, and one with residuals: the minimum is `0` and the maximum the
stored one of the first segment, larger than every row. -/
example : (∀ s ∈ [[risingSegment], [regularSegment]].flatten, ProducedWithin (linearError 50 1658671178044 1) s ∧
      ∀ ts ws, grid s = some (ts, ws) → FollowsModel s ws) ∧
    gridAll [[risingSegment], [regularSegment]].flatten = some (risingSeries.1 ++ regularPoints.1, risingRead ++ regularPoints.2) ∧
    (∀ v ∈ risingRead ++ regularPoints.2, (FVal.ofBits32 v).isFinite = true) ∧
    execute .min [[risingSegment], [regularSegment]] = some (.f32 (.fin false 0)) ∧
    execute .max [[risingSegment], [regularSegment]] = some (.f32 (FVal.ofBits32 1110966237)) ∧
    ∀ v ∈ risingRead ++ regularPoints.2, (FVal.ofBits32 v).lt (FVal.ofBits32 1110966237) = true := by
  refine ⟨fun s hs => ?_, by decide +kernel, by decide +kernel, by decide +kernel, by decide +kernel, by decide +kernel⟩
  rcases List.mem_pair.mp hs with rfl | rfl
  · refine ⟨⟨exactLog2, .lossless, risingSeries.1, risingSeries.2, [risingSegment], 50, 1658671178044, 1, risingSeries_numeric, le_refl _,
      by decide +kernel, by simp⟩, fun ts ws hg => Or.inr (Or.inl rfl)⟩
  · refine ⟨⟨exactLog2, .lossless, regularPoints.1, regularPoints.2, [regularSegment], 10, 1100, 100, regularSeries_numeric,
      by unfold linearError; norm_num, by decide +kernel, by simp⟩, fun ts ws hg => Or.inr (Or.inr ⟨0, 0x41100000, by decide +kernel, ?_, ?_⟩)⟩
    · have hg' : grid regularSegment = some (regularPoints.1, regularPoints.2) := by decide +kernel
      obtain ⟨rfl, rfl⟩ := Prod.mk.inj (Option.some.inj (hg'.symm.trans hg))
      decide +kernel
    · decide +kernel

end ModelarDB.Props
