import Verif.Props.C38Extrema
import Verif.Spec.StoredAggregates
/-
C84: aggregates of values that are stored with an error bound are those of the ingested values up to the error bound.
-/
namespace ModelarDB.Props
open Model Model.Aggregates Spec Lemmas

/-- A series of finite values that is stored within its error bound, by C11. -/
structure StoredWithin (eb : ErrorBound) (p : Series) : Prop where
  length : p.1.length = p.2.length
  nonempty : p.1 ≠ []
  range : ∀ t ∈ p.1, IsI64 t
  increasing : StrictlyIncreasing p.1
  size : p.1.length < 2 ^ 63
  bits : ∀ v ∈ p.2, v < 2 ^ 32
  finite : ∀ v ∈ p.2, (FVal.ofBits32 v).isFinite = true
  guard : ∀ v ∈ p.2, XorGuard eb (FVal.ofBits32 v)
  linear : LinearFaithful (ReadWithin eb) eb p.1 p.2

/-- The error bounds for which C11 is proved. -/
def ProvedBound (eb : ErrorBound) : Prop :=
  ValidErrorBound eb ∧ ∀ s r, eb = .relative (.fin s r) → (2 : ℚ) ^ (-100 : ℤ) ≤ r ∧ r ≤ 99.9999

/-- The segments of the series in a table, in any order and any number of partitions. -/
structure StoredAs (log2 : Log2) (eb : ErrorBound) (series : List Series) (partitions : List (List Segment)) : Prop where
  bound : ProvedBound eb
  accurate : Log2Accurate log2
  within : ∀ p ∈ series, StoredWithin eb p
  segments : ∃ stored : List (List Segment),
    List.Forall₂ (fun p segments => tryCompressUnivariate log2 eb p.1 p.2 = .segments segments) series stored ∧
    partitions.flatten.Perm stored.flatten

theorem gridAll_of_grids {l : List Segment} (h : ∀ s ∈ l, ∃ ts, grid s = some (ts, valuesOf s)) :
    ∃ times, gridAll l = some (times, l.flatMap valuesOf) := by
  induction l with
  | nil => exact ⟨[], rfl⟩
  | cons s l ih =>
    obtain ⟨ts, hts⟩ := h s (by simp)
    obtain ⟨times, ht⟩ := ih fun x hx => h x (by simp [hx])
    refine ⟨ts ++ times, ?_⟩
    unfold gridAll at ht ⊢
    rw [List.foldr_cons, ht, hts]
    simp

/-- A value within the error bound of a finite value is finite and deviates by at most `deviationOf`. -/
theorem within_deviation {eb : ErrorBound} (hvalid : ValidErrorBound eb) {x y : FVal} (hx : x.isFinite = true) (h : WithinExact eb x y) :
    y.isFinite = true ∧ |numberOf x - numberOf y| ≤ deviationOf eb (numberOf x) := by
  cases x with
  | nan => cases hx
  | inf s => cases hx
  | fin s q =>
    rcases valid_cases hvalid with rfl | ⟨b, _, hb, rfl⟩ | ⟨r, _, hr, _, rfl⟩ <;> cases y with
    | nan => cases h
    | inf t => cases h
    | fin t q' =>
      refine ⟨rfl, ?_⟩
      first
      | (have h' : ratOf s q = ratOf t q' := h
         show |ratOf s q - ratOf t q'| ≤ 0 * _
         rw [h', sub_self, abs_zero, zero_mul])
      | (have h' : |ratOf s q - ratOf t q'| ≤ b * (1 + 1 / 2 ^ 23) := h
         show |ratOf s q - ratOf t q'| ≤ b * (1 + 1 / 2 ^ 22)
         refine h'.trans (mul_le_mul_of_nonneg_left (by norm_num) hb.le))
      | exact h

/-- The values that are read are those that were ingested up to their order and the error bound. -/
theorem stored_values {log2 : Log2} {eb : ErrorBound} {series : List Series} {partitions : List (List Segment)}
    (h : StoredAs log2 eb series partitions) :
    ∃ times values ordered, gridAll partitions.flatten = some (times, values) ∧ values.Perm ordered ∧
      List.Forall₂ (ReadWithin eb) (series.flatMap Prod.snd) ordered := by
  obtain ⟨stored, hst, hperm⟩ := h.segments
  have key : ∀ {series : List Series} {stored : List (List Segment)},
      List.Forall₂ (fun p segments => tryCompressUnivariate log2 eb p.1 p.2 = .segments segments) series stored →
      (∀ p ∈ series, StoredWithin eb p) → (∀ s ∈ stored.flatten, ∃ ts, grid s = some (ts, valuesOf s)) ∧
        List.Forall₂ (ReadWithin eb) (series.flatMap Prod.snd) (stored.flatten.flatMap valuesOf) := by
    intro series stored hf
    induction hf with
    | nil => exact fun _ => ⟨by simp, by simp⟩
    | @cons p segments series stored hp hf ih =>
      intro hw
      obtain ⟨ih1, ih2⟩ := ih fun q hq => hw q (by simp [hq])
      have w := hw p (by simp)
      obtain ⟨segments', ws, h1, h2, h3⟩ := C11_lossy_readback_partial log2 h.accurate eb h.bound.1 h.bound.2 p.1 p.2 w.length w.nonempty w.range
        w.increasing w.size w.bits (fun v hv => finite_not_nan (w.finite v hv)) w.guard w.linear
      have hsame : segments = segments' := by
        have := hp.symm.trans h1
        injection this
      subst hsame
      obtain ⟨k1, k2⟩ := gridAll_values h2
      refine ⟨fun s hs => ?_, ?_⟩
      · rw [List.flatten_cons] at hs
        rcases List.mem_append.mp hs with hs | hs
        · exact k2 s hs
        · exact ih1 s hs
      · rw [List.flatMap_cons, List.flatten_cons, List.flatMap_append, ← k1]
        exact List.rel_append h3 ih2
  obtain ⟨k1, k2⟩ := key hst h.within
  obtain ⟨times, ht⟩ := gridAll_of_grids (l := partitions.flatten) fun s hs => k1 s (hperm.subset hs)
  exact ⟨times, _, _, ht, hperm.flatMap_right _, k2⟩

/-- Every segment of the table was produced from one of the series. -/
theorem stored_produced {log2 : Log2} {eb : ErrorBound} {series : List Series} {partitions : List (List Segment)}
    (h : StoredAs log2 eb series partitions) :
    ∀ s ∈ partitions.flatten, ∃ p ∈ series, ∃ segments, tryCompressUnivariate log2 eb p.1 p.2 = .segments segments ∧ s ∈ segments := by
  obtain ⟨stored, hst, hperm⟩ := h.segments
  intro s hs
  obtain ⟨segments, hm, hs⟩ := List.mem_flatten.mp (hperm.subset hs)
  obtain ⟨i, hi, rfl⟩ := List.getElem_of_mem hm
  rw [List.forall₂_iff_get] at hst
  have := hst.2 i (hst.1 ▸ hi) hi
  exact ⟨_, List.getElem_mem _, _, this, hs⟩

theorem stored_producedFrom {log2 : Log2} {eb : ErrorBound} {series : List Series} {partitions : List (List Segment)}
    (h : StoredAs log2 eb series partitions) : ∀ s ∈ partitions.flatten, ∃ vs, ProducedFrom s vs := by
  intro s hs
  obtain ⟨p, hp, segments, h1, h2⟩ := stored_produced h s hs
  have w := h.within p hp
  exact ⟨p.2, log2, eb, p.1, segments, h.bound.1, w.length, w.nonempty, w.range, w.increasing, w.size, w.bits, h1, h2⟩

/-- The sums of values and of those within the error bound of them. -/
theorem totals_within {eb : ErrorBound} (hvalid : ValidErrorBound eb) {vs ws : List Nat} (h : List.Forall₂ (ReadWithin eb) vs ws)
    (hfin : ∀ v ∈ vs, (FVal.ofBits32 v).isFinite = true) :
    (∀ w ∈ ws, (FVal.ofBits32 w).isFinite = true) ∧
    |total (ws.map FVal.ofBits32) - total (vs.map FVal.ofBits32)| ≤ totalDeviation eb (vs.map FVal.ofBits32) ∧
    totalAbs (ws.map FVal.ofBits32) ≤ totalAbs (vs.map FVal.ofBits32) + totalDeviation eb (vs.map FVal.ofBits32) := by
  induction h with
  | nil => simp [total, totalAbs, totalDeviation]
  | @cons v w vs ws hvw _ ih =>
    obtain ⟨i1, i2, i3⟩ := ih fun x hx => hfin x (by simp [hx])
    obtain ⟨k1, k2⟩ := within_deviation hvalid (hfin v (by simp)) hvw
    refine ⟨fun x hx => ?_, ?_, ?_⟩
    · rcases List.mem_cons.mp hx with rfl | hx
      · exact k1
      · exact i1 x hx
    all_goals
      simp only [total, totalAbs, totalDeviation, List.map_cons, List.sum_cons] at i2 i3 ⊢
      have a := abs_le.mp k2
      have b := abs_le.mp i2
    · exact abs_le.mpr ⟨by linarith, by linarith⟩
    · have c := abs_sub_abs_le_abs_sub (numberOf (FVal.ofBits32 w)) (numberOf (FVal.ofBits32 v))
      rw [abs_sub_comm (numberOf (FVal.ofBits32 w))] at c
      linarith

theorem total_perm {a b : List Nat} (h : a.Perm b) : total (a.map FVal.ofBits32) = total (b.map FVal.ofBits32) ∧
    totalAbs (a.map FVal.ofBits32) = totalAbs (b.map FVal.ofBits32) :=
  ⟨((h.map _).map _).sum_eq, ((h.map _).map _).sum_eq⟩

/-- **C84** for COUNT: the number of ingested points. -/
theorem C84_count (log2 : Log2) (eb : ErrorBound) (series : List Series) (partitions : List (List Segment))
    (h : StoredAs log2 eb series partitions) (hsize : (ingestedValues series).length < 2 ^ 63) :
    execute .count partitions = some (.int (ingestedValues series).length) := by
  obtain ⟨times, values, ordered, h1, h2, h3⟩ := stored_values h
  have hlen : values.length = (ingestedValues series).length := by
    unfold ingestedValues
    rw [List.length_map, h3.length_eq, h2.length_eq]
  obtain ⟨result, k1, k2⟩ := C38_count partitions (stored_producedFrom h) times values h1 (by rw [hlen]; exact hsize) 0
  rw [k1, show result = .int (values.map FVal.ofBits32).length from k2, List.length_map, hlen]

/-- What is read: finite values, as many as were ingested, whose sums deviate by at most the error bound. -/
theorem stored_totals {log2 : Log2} {eb : ErrorBound} {series : List Series} {partitions : List (List Segment)}
    (h : StoredAs log2 eb series partitions) (hne : series ≠ []) :
    ∃ times values, gridAll partitions.flatten = some (times, values) ∧ values ≠ [] ∧ values.length = (ingestedValues series).length ∧
      (∀ w ∈ values, (FVal.ofBits32 w).isFinite = true) ∧
      |total (values.map FVal.ofBits32) - total (ingestedValues series)| ≤ totalDeviation eb (ingestedValues series) ∧
      totalAbs (values.map FVal.ofBits32) ≤ totalAbs (ingestedValues series) + totalDeviation eb (ingestedValues series) := by
  obtain ⟨times, values, ordered, h1, h2, h3⟩ := stored_values h
  have hfin : ∀ v ∈ series.flatMap Prod.snd, (FVal.ofBits32 v).isFinite = true := by
    intro v hv
    obtain ⟨p, hp, hv⟩ := List.mem_flatMap.mp hv
    exact (h.within p hp).finite v hv
  obtain ⟨hwf, ht, ha⟩ := totals_within h.bound.1 h3 hfin
  rw [← (total_perm h2).1] at ht
  rw [← (total_perm h2).2] at ha
  refine ⟨times, values, h1, ?_, ?_, fun w hw => hwf w (h2.subset hw), ht, ha⟩
  · obtain ⟨p, rest, rfl⟩ := List.exists_cons_of_ne_nil hne
    have w := h.within p (by simp)
    have hl := h3.length_eq.trans h2.length_eq.symm
    intro hc
    rw [hc, List.flatMap_cons, List.length_append, ← w.length, List.length_nil] at hl
    exact w.nonempty (List.length_eq_zero_iff.mp (by omega))
  · unfold ingestedValues
    rw [List.length_map, h3.length_eq, h2.length_eq]

theorem forall₂_left {α β : Type} {R : α → β → Prop} {a : List α} {b : List β} (h : List.Forall₂ R a b) {x : α} (hx : x ∈ a) : ∃ y ∈ b, R x y := by
  induction h with
  | nil => cases hx
  | cons h _ ih =>
    rcases List.mem_cons.mp hx with rfl | hx
    · exact ⟨_, by simp, h⟩
    · obtain ⟨y, hy, hr⟩ := ih hx
      exact ⟨y, by simp [hy], hr⟩

theorem forall₂_right {α β : Type} {R : α → β → Prop} {a : List α} {b : List β} (h : List.Forall₂ R a b) {y : β} (hy : y ∈ b) : ∃ x ∈ a, R x y :=
  forall₂_left (R := fun y x => R x y) h.flip hy

/-- **C84** for MIN and MAX: they are within the error bound and the rounding of linear models of the minimum and the maximum of the ingested
values. -/
theorem C84_min_max_partial (log2 : Log2) (eb : ErrorBound) (series : List Series) (partitions : List (List Segment))
    (h : StoredAs log2 eb series partitions) (hne : series ≠ []) (e : ℚ)
    (hnumeric : ∀ p ∈ series, ∃ M T D, NumericSeries eb p.1 p.2 M T D ∧ linearError M T D ≤ e) :
    (∃ m, execute .min partitions = some (.f32 m) ∧ MinimumDeviates eb e m (ingestedValues series)) ∧
    ∃ m, execute .max partitions = some (.f32 m) ∧ MaximumDeviates eb e m (ingestedValues series) := by
  obtain ⟨times, values, ordered, h1, h2, h3⟩ := stored_values h
  have hfin : ∀ v ∈ series.flatMap Prod.snd, (FVal.ofBits32 v).isFinite = true := by
    intro v hv
    obtain ⟨p, hp, hv⟩ := List.mem_flatMap.mp hv
    exact (h.within p hp).finite v hv
  obtain ⟨hwf, _⟩ := totals_within h.bound.1 h3 hfin
  have hvne : values ≠ [] := by
    obtain ⟨p, rest, rfl⟩ := List.exists_cons_of_ne_nil hne
    have w := h.within p (by simp)
    have hl := h3.length_eq.trans h2.length_eq.symm
    intro hc
    rw [hc, List.flatMap_cons, List.length_append, ← w.length, List.length_nil] at hl
    exact w.nonempty (List.length_eq_zero_iff.mp (by omega))
  obtain ⟨hv, hg⟩ := gridAll_values h1
  have hboth : ∀ s ∈ partitions.flatten, ∀ ts ws, grid s = some (ts, ws) →
      MinimumWithin e (FVal.ofBits32 s.minValue) (ws.map FVal.ofBits32) ∧ MaximumWithin e (FVal.ofBits32 s.maxValue) (ws.map FVal.ofBits32) := by
    intro s hs ts ws hgs
    obtain ⟨p, hp, segments, k1, k2⟩ := stored_produced h s hs
    obtain ⟨M, T, D, hn, he⟩ := hnumeric p hp
    obtain ⟨segments', hseg', hall⟩ := C13_linear_rounding_partial log2 eb p.1 p.2 M T D hn
    have hsame : segments = segments' := by
      have := k1.symm.trans hseg'
      injection this
    subst hsame
    obtain ⟨a, b⟩ := hall s k2 ts ws hgs (.inr ⟨_, (h.within p hp).linear⟩) fun w hw => hwf w (h2.subset (by
      rw [hv]
      exact List.mem_flatMap.mpr ⟨s, hs, by rw [valuesOf_eq hgs]; exact hw⟩))
    exact ⟨minimumWithin_mono a he, maximumWithin_mono b he⟩
  obtain ⟨m, m1, m2, ⟨x, hx, m3⟩, m4⟩ := C38_min_errors_partial partitions e times values h1 hvne fun s hs ts ws hgs => (hboth s hs ts ws hgs).1
  obtain ⟨n, n1, n2, ⟨y, hy, n3⟩, n4⟩ := C38_max_errors_partial partitions e times values h1 hvne fun s hs ts ws hgs => (hboth s hs ts ws hgs).2
  have back : ∀ x ∈ values.map FVal.ofBits32, ∃ v ∈ ingestedValues series, |numberOf v - numberOf x| ≤ deviationOf eb (numberOf v) := by
    intro x hx
    obtain ⟨w, hw, rfl⟩ := List.mem_map.mp hx
    obtain ⟨v, hv, hr⟩ := forall₂_right h3 (h2.subset hw)
    exact ⟨_, List.mem_map_of_mem hv, (within_deviation h.bound.1 (hfin v hv) hr).2⟩
  have forth : ∀ v ∈ ingestedValues series, ∃ x ∈ values.map FVal.ofBits32, |numberOf v - numberOf x| ≤ deviationOf eb (numberOf v) := by
    intro x hx
    obtain ⟨v, hv, rfl⟩ := List.mem_map.mp hx
    obtain ⟨w, hw, hr⟩ := forall₂_left h3 hv
    exact ⟨_, List.mem_map_of_mem (h2.symm.subset hw), (within_deviation h.bound.1 (hfin v hv) hr).2⟩
  refine ⟨⟨m, m1, m2, ?_, fun v hv => ?_⟩, ⟨n, n1, n2, ?_, fun v hv => ?_⟩⟩
  · obtain ⟨v, hv, hd⟩ := back x hx
    have a := abs_le.mp hd
    have b := abs_le.mp m3
    exact ⟨v, hv, abs_le.mpr ⟨by linarith, by linarith⟩⟩
  · obtain ⟨x, hx, hd⟩ := forth v hv
    have a := abs_le.mp hd
    have b := m4 x hx
    linarith
  · obtain ⟨v, hv, hd⟩ := back y hy
    have a := abs_le.mp hd
    have b := abs_le.mp n3
    exact ⟨v, hv, abs_le.mpr ⟨by linarith, by linarith⟩⟩
  · obtain ⟨x, hx, hd⟩ := forth v hv
    have a := abs_le.mp hd
    have b := n4 x hx
    linarith

theorem sumError_mono {a b : Nat} {e m m' : ℚ} (h : m ≤ m') : sumError a b e m ≤ sumError a b e m' := by
  unfold sumError
  have : (0 : ℚ) ≤ (1 + 1 / 2 ^ 53) ^ (1 + a + b) - 1 := by
    have : (1 : ℚ) ≤ (1 + 1 / 2 ^ 53) ^ (1 + a + b) := one_le_pow₀ (by norm_num)
    linarith
  have := mul_le_mul_of_nonneg_left (show m + e ≤ m' + e by linarith) this
  linarith

/-- **C84** for SUM: it is the sum of the ingested values up to the sum of the deviations that the error bound allows and the rounding of the
addition, where `e` is that of the segments. -/
theorem C84_sum_partial (log2 : Log2) (eb : ErrorBound) (series : List Series) (partitions : List (List Segment))
    (h : StoredAs log2 eb series partitions) (hne : series ≠ []) (e : Segment → ℚ)
    (hsums : ∀ s ∈ partitions.flatten, ∀ ts ws, grid s = some (ts, ws) → SumErrorOf s ts ws (e s)) :
    ∃ x, execute .sum partitions = some (.f64 x) ∧ (x.isFinite = true →
      |numberOf x - total (ingestedValues series)| ≤ totalDeviation eb (ingestedValues series) +
        sumError partitions.flatten.length partitions.length (partitions.flatten.map e).sum
          (totalAbs (ingestedValues series) + totalDeviation eb (ingestedValues series))) := by
  obtain ⟨times, values, h1, h2, h3, h4, h5, h6⟩ := stored_totals h hne
  obtain ⟨x, k1, k2⟩ := C38_sum_linear_partial partitions e times values h1 h2 h4 fun s hs => ⟨stored_producedFrom h s hs, hsums s hs⟩
  refine ⟨x, k1, fun hx => ?_⟩
  have a := abs_le.mp ((k2 hx).trans (sumError_mono h6))
  have b := abs_le.mp h5
  exact abs_le.mpr ⟨by linarith, by linarith⟩

/-- **C84** for AVG: it is the average of the ingested values up to the average of the deviations that the error bound allows and the rounding. -/
theorem C84_avg_partial (log2 : Log2) (eb : ErrorBound) (series : List Series) (partitions : List (List Segment))
    (h : StoredAs log2 eb series partitions) (hne : series ≠ []) (hsize : (ingestedValues series).length ≤ 2 ^ 53) (e : Segment → ℚ)
    (hsums : ∀ s ∈ partitions.flatten, ∀ ts ws, grid s = some (ts, ws) → SumErrorOf s ts ws (e s)) :
    ∃ x, execute .avg partitions = some (.f64 x) ∧ (x.isFinite = true →
      |numberOf x - total (ingestedValues series) / (ingestedValues series).length| ≤
        totalDeviation eb (ingestedValues series) / (ingestedValues series).length +
        sumError partitions.flatten.length (partitions.length + 1) (partitions.flatten.map e).sum
          (totalAbs (ingestedValues series) + totalDeviation eb (ingestedValues series)) / (ingestedValues series).length) := by
  obtain ⟨times, values, h1, h2, h3, h4, h5, h6⟩ := stored_totals h hne
  obtain ⟨x, k1, k2⟩ := C38_avg_linear_partial partitions e times values h1 h2 (by rw [h3]; exact hsize) h4
    fun s hs => ⟨stored_producedFrom h s hs, hsums s hs⟩
  refine ⟨x, k1, fun hx => ?_⟩
  have k := k2 hx
  rw [h3] at k
  have hn : (0 : ℚ) ≤ ((ingestedValues series).length : ℚ) := Nat.cast_nonneg _
  have a := abs_le.mp (k.trans (div_le_div_of_nonneg_right (sumError_mono h6) hn))
  have b := abs_le.mp h5
  have b1 := div_le_div_of_nonneg_right b.1 hn
  have b2 := div_le_div_of_nonneg_right b.2 hn
  rw [sub_div] at b1 b2
  rw [neg_div] at b1
  exact abs_le.mpr ⟨by linarith, by linarith⟩

theorem totalDeviation_absolute (s : Bool) (b : ℚ) (xs : List FVal) :
    totalDeviation (.absolute (.fin s b)) xs = xs.length * (b * (1 + 1 / 2 ^ 22)) := by
  unfold totalDeviation
  rw [show (fun x => deviationOf (.absolute (.fin s b)) (numberOf x)) = fun _ => b * (1 + 1 / 2 ^ 22) from rfl, List.map_const', List.sum_replicate,
    nsmul_eq_mul]

/-- For an absolute error bound `b` the average is within `b` of the average of the ingested values, up to rounding. -/
theorem C84_avg_absolute_partial (log2 : Log2) (sign : Bool) (b : ℚ) (series : List Series) (partitions : List (List Segment))
    (h : StoredAs log2 (.absolute (.fin sign b)) series partitions) (hne : series ≠ []) (hsize : (ingestedValues series).length ≤ 2 ^ 53)
    (e : Segment → ℚ) (hsums : ∀ s ∈ partitions.flatten, ∀ ts ws, grid s = some (ts, ws) → SumErrorOf s ts ws (e s)) :
    ∃ x, execute .avg partitions = some (.f64 x) ∧ (x.isFinite = true →
      |numberOf x - total (ingestedValues series) / (ingestedValues series).length| ≤ b * (1 + 1 / 2 ^ 22) +
        sumError partitions.flatten.length (partitions.length + 1) (partitions.flatten.map e).sum
          (totalAbs (ingestedValues series) + (ingestedValues series).length * (b * (1 + 1 / 2 ^ 22))) / (ingestedValues series).length) := by
  obtain ⟨x, k1, k2⟩ := C84_avg_partial log2 _ series partitions h hne hsize e hsums
  refine ⟨x, k1, fun hx => ?_⟩
  have k := k2 hx
  have hn : ((ingestedValues series).length : ℚ) ≠ 0 := by
    obtain ⟨_, values, _, h2, h3, _⟩ := stored_totals h hne
    rw [← h3]
    exact Nat.cast_ne_zero.mpr fun hc => h2 (List.length_eq_zero_iff.mp hc)
  rw [totalDeviation_absolute, mul_div_cancel_left₀ _ hn] at k
  exact k

/-- The segments of `minuteSeries` and of three values close to each other with the absolute error bound `0.25`. -/
def minuteSegment : Segment :=
  ⟨.swing, 1600000000000, 1600000660000, [12], 1120403456, 1121189888, [2, 4, 1, 209, 66], [218, 141, 1, 7, 88, 158, 2]⟩

def closeSeries : Series := ([100, 200, 300], [0x41200000, 0x41220000, 0x41210000])

def closeSegment : Segment := ⟨.macaqueV, 100, 300, [3], 1092616192, 1092616192, [65, 32, 0, 0, 160], []⟩

theorem quarter_proved : ProvedBound (.absolute (.fin false (1 / 4))) :=
  ⟨Or.inr ⟨0x3e800000, by decide, Or.inl (by decide +kernel)⟩, fun s r h => by cases h⟩

theorem minuteSeries_within : StoredWithin (.absolute (.fin false (1 / 4))) minuteSeries where
  length := rfl
  nonempty := by decide
  range := by decide +kernel
  increasing := by unfold StrictlyIncreasing; decide +kernel
  size := by decide
  bits := by decide
  finite := by decide +kernel
  guard := minuteSeries_guard
  linear := faithful_of_scale quarter_proved.1 rfl (by decide +kernel) minuteSeries_scale

theorem closeSeries_within : StoredWithin (.absolute (.fin false (1 / 4))) closeSeries where
  length := rfl
  nonempty := by decide
  range := by decide +kernel
  increasing := by unfold StrictlyIncreasing; decide +kernel
  size := by decide
  bits := by decide
  finite := by decide +kernel
  guard := by
    intro v hv
    fin_cases hv
    all_goals
      refine Or.inr ?_
      norm_num [pow2_eq]
  linear := linearFaithful_of_none (by decide +kernel)

/-- The two segments in two partitions, in another order than they were ingested. -/
theorem example_stored : StoredAs exactLog2 (.absolute (.fin false (1 / 4))) [minuteSeries, closeSeries] [[closeSegment], [minuteSegment]] where
  bound := quarter_proved
  accurate := exactLog2_accurate
  within := by
    intro p hp
    rcases List.mem_pair.mp hp with rfl | rfl
    · exact minuteSeries_within
    · exact closeSeries_within
  segments := ⟨[[minuteSegment], [closeSegment]], .cons (by decide +kernel) (.cons (by decide +kernel) .nil), by decide⟩

/-- The fifteen ingested values have the minimum `10`, the maximum `106` and the sum `1259.71875`; the stored ones of the table have the sum `1259.51...`.
COUNT, MIN, MAX and SUM are those of the theorems and the error that is allowed for MIN and MAX in addition to the error bound is small. -/
example : (∀ p ∈ [minuteSeries, closeSeries], ∃ M T D, NumericSeries (.absolute (.fin false (1 / 4))) p.1 p.2 M T D ∧
      linearError M T D ≤ 1 / 10000) ∧
    execute .count [[closeSegment], [minuteSegment]] = some (.int 15) ∧
    execute .min [[closeSegment], [minuteSegment]] = some (.f32 (.fin false 10)) ∧
    execute .max [[closeSegment], [minuteSegment]] = some (.f32 (.fin false 106)) ∧
    execute .sum [[closeSegment], [minuteSegment]] = some (.f64 (.fin false (10317905 / 8192))) ∧
    total (ingestedValues [minuteSeries, closeSeries]) = 40311 / 32 ∧
    totalDeviation (.absolute (.fin false (1 / 4))) (ingestedValues [minuteSeries, closeSeries]) = 15 / 4 * (1 + 1 / 2 ^ 22) := by
  refine ⟨fun p hp => ?_, by decide +kernel, by decide +kernel, by decide +kernel, by decide +kernel, by decide +kernel, by decide +kernel⟩
  rcases List.mem_pair.mp hp with rfl | rfl
  · exact ⟨128, 1600000660000, 60000, ⟨quarter_proved.1, rfl, by decide, by decide +kernel, by unfold StrictlyIncreasing; decide +kernel, by decide,
      by decide, by decide +kernel, by decide +kernel, by decide +kernel, by decide +kernel, by norm_num, by norm_num, by decide +kernel⟩,
      by unfold linearError; norm_num⟩
  · exact ⟨16, 300, 100, ⟨quarter_proved.1, rfl, by decide, by decide +kernel, by unfold StrictlyIncreasing; decide +kernel, by decide,
      by decide, by decide +kernel, by decide +kernel, by decide +kernel, by decide +kernel, by norm_num, by norm_num, by decide +kernel⟩,
      by unfold linearError; norm_num⟩

/-- The hypothesis about the sums of the segments holds of the table, and the error that is allowed in addition to the error bound is small. -/
example : ∃ e : Segment → ℚ,
    (∀ s ∈ [[closeSegment], [minuteSegment]].flatten, ∀ ts ws, grid s = some (ts, ws) → SumErrorOf s ts ws (e s)) ∧
    sumError 2 2 ([[closeSegment], [minuteSegment]].flatten.map e).sum (totalAbs (ingestedValues [minuteSeries, closeSeries]) +
      totalDeviation (.absolute (.fin false (1 / 4))) (ingestedValues [minuteSeries, closeSeries])) < 1 / 100 := by
  refine ⟨fun s => if s.modelType = .swing then (2 * (10 : ℕ) * (128 * 1600000660000 / ((1600000540000 : ℤ) - (1600000000000 : ℤ)) * (1 / 2 ^ 44) +
      128 * (1 / 2 ^ 20)) + ((1 + 1 / 2 ^ 24) ^ (residualsLength s.residuals + 1) - 1) * exactAbsSum (valuesOf s))
      else ((1 + 1 / 2 ^ 24) ^ ((valuesOf s).length + 3) - 1) * exactAbsSum (valuesOf s), ?_, ?_⟩
  · intro s hs
    rcases List.mem_pair.mp hs with rfl | rfl
    · refine fun ts ws hg => Or.inl ⟨by decide, ?_⟩
      dsimp only
      rw [← valuesOf_eq hg, if_neg (by decide)]
    · refine fun ts ws hg => Or.inr ⟨rfl, ?_⟩
      have hg' : grid minuteSegment = some (minuteSeries.1, [1120403456, 1120469021, 1120534586, 1120600151, 1120665716, 1120731280, 1120796845,
        1120862410, 1120927975, 1120993540, 1121189888, 1120534528]) := by decide +kernel
      have h := Option.some.inj (hg'.symm.trans hg)
      obtain ⟨rfl, rfl⟩ := Prod.mk.inj h
      dsimp only
      rw [if_pos (show minuteSegment.modelType = .swing from rfl), valuesOf_eq hg']
      exact ⟨10, 1120403456, 1120993540, 1600000000000, 1600000540000, 1600000660000, 128, 1600000660000,
        128 * 1600000660000 / ((1600000540000 : ℤ) - (1600000000000 : ℤ)), by decide +kernel, by decide, by decide, by decide, by decide,
        by decide, by decide, Or.inr ⟨by decide +kernel, by decide⟩, by decide +kernel, by decide +kernel, by decide +kernel, by decide +kernel,
        by decide +kernel, by decide +kernel, by decide +kernel, by decide +kernel, by norm_num, by decide +kernel, rfl⟩
  · decide +kernel

/-- Ten points of a line at irregular timestamps and an eleventh much later. -/
def irregularSeries : Series :=
  ([0, 1, 2, 3, 4, 5, 6, 7, 8, 10, 1000],
   [0, 0x3f800000, 0x40000000, 0x40400000, 0x40800000, 0x40a00000, 0x40c00000, 0x40e00000, 0x41000000, 0x41200000, 0x40a00000])

/-- **C84** is false of the code for SUM: this series is stored without loss and every value is read as it was ingested, but SUM is below `6` although
the ingested values sum to `51`. -/
theorem C84_sum_wrong : tryCompressUnivariate exactLog2 .lossless irregularSeries.1 irregularSeries.2 = .segments [irregularSegment] ∧
    gridAll [irregularSegment] = some irregularSeries ∧ total (ingestedValues [irregularSeries]) = 51 ∧
    totalDeviation .lossless (ingestedValues [irregularSeries]) = 0 ∧
    ∃ s q, execute .sum [[irregularSegment]] = some (.f64 (.fin s q)) ∧ ratOf s q < 6 :=
  ⟨by decide +kernel, by decide +kernel, by decide +kernel, by decide +kernel, false, 5725225 / 1048576, by decide +kernel, by decide +kernel⟩

end ModelarDB.Props
