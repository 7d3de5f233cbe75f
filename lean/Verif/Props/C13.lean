import Verif.Lemmas.Extrema
import Verif.Props.C10
/-
C13: segment minimum and maximum bound the stored values.
-/
namespace ModelarDB.Props
open Model Spec Lemmas

/-- **C13** for the segments with a constant model or XOR encoded values, of any series without NaN and
any error bound: the stored minimum and maximum are the exact minimum and maximum of the values that
are read from the segment. -/
theorem C13_min_max_partial (log2 : Log2) (eb : ErrorBound) (hvalid : ValidErrorBound eb)
    (ts : List Int) (vs : List Nat) (hlen : ts.length = vs.length) (hne : ts ≠ []) (hrange : ∀ t ∈ ts, IsI64 t)
    (hinc : StrictlyIncreasing ts) (hsize : ts.length < 2 ^ 63) (h32 : ∀ v ∈ vs, v < 2 ^ 32)
    (hnonan : ∀ v ∈ vs, (FVal.ofBits32 v).isNan = false) :
    ∃ segments, tryCompressUnivariate log2 eb ts vs = .segments segments ∧
      ∀ s ∈ segments, s.modelType ≠ .swing →
        ∃ ts' ws, grid s = some (ts', ws) ∧ IsMinimum s.minValue ws ∧ IsMaximum s.maxValue ws := by
  have hfit := goodFit_fitNextModel eb ts vs hlen
  obtain ⟨segments, hseg, hchain⟩ := tryCompressWith_chain (log2 := log2) (eb := eb) hfit hne hlen
  refine ⟨segments, hseg, fun s hs hty => ?_⟩
  obtain ⟨a, b, hp⟩ := chain_mem hchain hs
  rcases hp with ⟨ha, hab, hres, hb, h, hkept⟩ | ⟨hab, hb, h⟩
  · obtain ⟨f1, f2, f3, f4⟩ := hfit a ha
    dsimp only at f1 f2 f3 f4 hab hres h
    rcases fitNextModel_result eb ts vs a (by simp [hlen]; omega) with ⟨p, k, hk, hk', hpl, hacc, hm⟩ | ⟨sw, k, hk, hk', hsl, hacc, hm⟩
    · have hend : (fitNextModel a eb ts vs).endIndex = a + k - 1 := by rw [hm]; simp [ModelBuilder.selectPmcMean, hpl]
      have hlast : (fitNextModel a eb ts vs).modelLastValue = p.model.toBits32 := by rw [hm]; rfl
      have hslen : (sliceIncl ts a (a + k - 1)).length = (sliceIncl vs a (a + k - 1)).length := by
        rw [sliceIncl_length _ (by omega), sliceIncl_length _ (by omega)]
      rw [zip_drop_take ts vs hk, zip_map_snd hslen] at hacc
      have hvs : ∀ v ∈ (sliceIncl vs a (a + k - 1)).map FVal.ofBits32, IsF32 v := by
        intro v hv; obtain ⟨x, _, rfl⟩ := List.mem_map.mp hv; exact isF32_ofBits x
      have hmF := pmc_model_isF32 eb _ hvs p hacc
      have hinv := pmcFitAll_inv eb _ p hacc
      have hnan : (FVal.ofBits32 p.model.toBits32).isNan = false := by
        rw [ofBits_toBits hmF]
        obtain ⟨v, rest, hv⟩ := List.exists_cons_of_ne_nil (sliceIncl_ne_nil vs (a := a) (b := a + k - 1) (by omega) (by omega))
        have hvm : v ∈ sliceIncl vs a (a + k - 1) := by rw [hv]; simp
        cases hpm : p.model with
        | nan =>
          have hmin := check_nan eb hvalid (hpm ▸ (hinv.within (by rw [hv]; simp)).1)
          rcases hinv.isMin with ⟨_, h2⟩ | ⟨h2, _⟩
          · have := h2 _ (List.mem_map.mpr ⟨v, hvm, rfl⟩)
            rw [hnonan v (sliceIncl_mem hvm)] at this
            cases this
          · rw [hmin] at h2
            simp [FVal.isNan] at h2
        | _ => rfl
      have hmv := (pmc_modelValues hk hk' hpl hmF hnan hm h).2
      rw [← hend] at hmv
      have hg := model_grid hrange hinc hsize hlen h32 hfit ha hab hres hb h hkept hmv
        (by rw [hlast]; exact toBits_lt hmF)
        (fun _ => by rw [hlast, pmcMeanGrid, List.getLast?_replicate, if_neg (by omega)])
      refine ⟨_, _, hg, ?_⟩
      have hmin : (fitNextModel a eb ts vs).minValue = p.model.toBits32 := by rw [hm]; rfl
      have hmax : (fitNextModel a eb ts vs).maxValue = p.model.toBits32 := by rw [hm]; rfl
      rcases finish_fields h with ⟨hle, _, h2, h3, _, _⟩ | ⟨_, _, r, hr, h2, h3, _, _⟩
      · have hnil : sliceIncl vs ((fitNextModel a eb ts vs).endIndex + 1) b = [] := by
          unfold sliceIncl
          rw [List.drop_eq_nil_iff, List.length_take]
          omega
        rw [h2, h3, hmin, hmax, hnil]
        simp only [storedValues, List.append_nil, pmcMeanGrid]
        exact ⟨isMinimum_replicate hk, isMaximum_replicate hk⟩
      · rw [h2, h3, hmin, hmax, hr]
        exact ⟨isMinimum_append (isMinimum_replicate hk) (withoutFirst_isMinimum _ _ _ _),
          isMaximum_append (isMaximum_replicate hk) (withoutFirst_isMaximum _ _ _ _)⟩
    · exfalso
      apply hty
      have : (fitNextModel a eb ts vs).modelType = .swing := by rw [hm]; rfl
      rcases finish_fields h with ⟨_, h1, _⟩ | ⟨_, h1, _⟩ <;> rw [h1, this]
  · obtain ⟨_, v, rest, hv, hg⟩ := separate_grid hrange hinc hsize hlen h32 hab hb h
    refine ⟨_, _, hg, ?_⟩
    unfold compressResidualsInSeparateSegment at h
    rw [List.getElem?_eq_getElem (by omega), List.getElem?_eq_getElem hb] at h
    injection h with h
    subst h
    dsimp only
    rw [hv]
    exact ⟨values_isMinimum _ _ _ _, values_isMaximum _ _ _ _⟩

/-- **C13** for series without NaN that are compressed lossless: no value ingested into a segment with a
constant model or XOR encoded values lies outside the stored minimum and maximum, and both are equal to
a value ingested into the segment, provided that the linear models that were chosen reconstruct their
values. -/
theorem C13_min_max_ingested_partial (log2 : Log2) (ts : List Int) (vs : List Nat) (hlen : ts.length = vs.length)
    (hne : ts ≠ []) (hrange : ∀ t ∈ ts, IsI64 t) (hinc : StrictlyIncreasing ts) (hsize : ts.length < 2 ^ 63)
    (h32 : ∀ v ∈ vs, v < 2 ^ 32) (hnonan : ∀ v ∈ vs, (FVal.ofBits32 v).isNan = false)
    (hlinear : LinearFaithful SameFloat .lossless ts vs) :
    ∃ segments, tryCompressUnivariate log2 .lossless ts vs = .segments segments ∧
      ∀ s ∈ segments, s.modelType ≠ .swing → ∃ a b ws, a ≤ b ∧ b < ts.length ∧ grid s = some (sliceIncl ts a b, ws) ∧
        (∀ v ∈ sliceIncl vs a b, (FVal.ofBits32 v).lt (FVal.ofBits32 s.minValue) = false ∧
          (FVal.ofBits32 s.maxValue).lt (FVal.ofBits32 v) = false) ∧
        (∃ v ∈ sliceIncl vs a b, (FVal.ofBits32 v).eq (FVal.ofBits32 s.minValue) = true) ∧
        (∃ v ∈ sliceIncl vs a b, (FVal.ofBits32 v).eq (FVal.ofBits32 s.maxValue) = true) := by
  obtain ⟨segments, hseg, hall⟩ := C13_min_max_partial log2 .lossless (Or.inl rfl) ts vs hlen hne hrange hinc hsize h32 hnonan
  obtain ⟨segments', hseg', hchain⟩ := tryCompressWith_chain (log2 := log2) (eb := .lossless)
    (goodFit_fitNextModel .lossless ts vs hlen) hne hlen
  have hsame : segments = segments' := by
    have := hseg.symm.trans hseg'
    injection this
  subst hsame
  refine ⟨segments, hseg, fun s hs hty => ?_⟩
  obtain ⟨ts', ws, hg, hmin, hmax⟩ := hall s hs hty
  obtain ⟨a, b, hp⟩ := chain_mem hchain hs
  obtain ⟨c1, c2, c3, c4⟩ := sameFloat_conditions log2 vs
  obtain ⟨hab, hb, ws', hg', hR⟩ := readback_piece SameFloat log2 .lossless ts vs c2 c1 c3 c4 hlen hrange hinc hsize h32
    hnonan hlinear s a b hp
  rw [hg] at hg'
  injection hg' with hg'
  injection hg' with e1 e2
  subst e1
  subst e2
  -- the values that are read are equal to those ingested
  have hread : ∀ v ∈ sliceIncl vs a b, ∃ w ∈ ws, (FVal.ofBits32 v).eq (FVal.ofBits32 w) = true := by
    intro v hv
    obtain ⟨i, hi, rfl⟩ := List.getElem_of_mem hv
    rw [List.forall₂_iff_get] at hR
    have := hR.2 i hi (hR.1 ▸ hi)
    refine ⟨ws[i]'(hR.1 ▸ hi), List.getElem_mem _, ?_⟩
    rcases this with h | ⟨h, _⟩
    · exact h
    · simp only [List.get_eq_getElem] at h
      rw [hnonan _ (sliceIncl_mem (List.getElem_mem _))] at h
      cases h
  have hback : ∀ w ∈ ws, ∃ v ∈ sliceIncl vs a b, (FVal.ofBits32 v).eq (FVal.ofBits32 w) = true := by
    intro w hw
    obtain ⟨i, hi, rfl⟩ := List.getElem_of_mem hw
    rw [List.forall₂_iff_get] at hR
    have := hR.2 i (hR.1 ▸ hi) hi
    refine ⟨(sliceIncl vs a b)[i]'(hR.1 ▸ hi), List.getElem_mem _, ?_⟩
    rcases this with h | ⟨h, _⟩
    · exact h
    · simp only [List.get_eq_getElem] at h
      rw [hnonan _ (sliceIncl_mem (List.getElem_mem _))] at h
      cases h
  have hlt : ∀ {x y z : FVal}, x.eq y = true → y.lt z = false → x.lt z = false := by
    intro x y z h1 h2
    cases x <;> cases y <;> cases z <;> simp_all [FVal.eq, FVal.lt]
  have hlt' : ∀ {x y z : FVal}, x.eq y = true → z.lt y = false → z.lt x = false := by
    intro x y z h1 h2
    cases x <;> cases y <;> cases z <;> simp_all [FVal.eq, FVal.lt]
  -- not all values that are read are NaN
  have hsome : ¬ ∀ w ∈ ws, (FVal.ofBits32 w).isNan = true := by
    intro hnan
    obtain ⟨v, rest, hv⟩ := List.exists_cons_of_ne_nil (sliceIncl_ne_nil vs hab (by omega : b < vs.length))
    obtain ⟨w, hw, he⟩ := hread v (by rw [hv]; simp)
    have := hnan w hw
    cases hx : FVal.ofBits32 w <;> rw [hx] at this he <;> cases this
    cases hy : FVal.ofBits32 v <;> rw [hy] at he <;> cases he
  rcases hmin with ⟨h, _⟩ | ⟨m1, m2, m3⟩
  · exact absurd h hsome
  rcases hmax with ⟨h, _⟩ | ⟨x1, x2, x3⟩
  · exact absurd h hsome
  refine ⟨a, b, ws, hab, hb, hg, fun v hv => ?_, hback _ m1, hback _ x1⟩
  obtain ⟨w, hw, he⟩ := hread v hv
  exact ⟨hlt he (m3 w hw), hlt' he (x3 w hw)⟩

/-- A series with a constant run and then other values, stored as a constant model with residuals. -/
example : ∃ s, tryCompressUnivariate exactLog2 .lossless [0, 1, 2, 3, 4, 5, 6, 7, 8, 9, 10]
      [0x3f800000, 0x3f800000, 0x3f800000, 0x3f800000, 0x3f800000, 0x3f800000, 0x3f800000, 0x3f800000, 0x3f800000,
        0x40a00000, 0x40000000] =
      .segments [s] ∧ s.modelType = .pmcMean ∧ s.minValue = 0x3f800000 ∧ s.maxValue = 0x40a00000 :=
  ⟨⟨.pmcMean, 0, 10, [11], 0x3f800000, 0x40a00000, [], [194, 87, 242, 1, 64, 2]⟩, by decide +kernel, rfl, rfl, rfl⟩

/-- Eight points near a rising line. -/
def risingSeries : List Int × List Nat :=
  ([1658671178037, 1658671178038, 1658671178039, 1658671178040, 1658671178041, 1658671178042, 1658671178043, 1658671178044],
   [0x42353313, 0x42359979, 0x4235ffd8, 0x42366640, 0x4236cca8, 0x42373310, 0x42379970, 0x4237ffd8])

/-- **C13** is false of the values read from a linear model: a lossless segment reads back a value below
its stored minimum. -/
theorem C13_linear_below_minimum :
    ∃ s ws, tryCompressUnivariate exactLog2 .lossless risingSeries.1 risingSeries.2 = .segments [s] ∧
      grid s = some (risingSeries.1, ws) ∧ ∃ w ∈ ws, (FVal.ofBits32 w).lt (FVal.ofBits32 s.minValue) = true := by
  refine ⟨⟨.swing, 1658671178037, 1658671178044, [8], 1110782739, 1110966237, [], []⟩,
    [1110782736, 1110808944, 1110835160, 1110861376, 1110887592, 1110913808, 1110940016, 1110966232],
    ?_, ?_, 1110782736, by simp, ?_⟩ <;> decide +kernel

/-- **C13** is false of the values ingested with a lossy error bound: with the absolute bound `1` the
values `1` and `2` are stored with the maximum `1`, so `MAX` answers `1`. -/
theorem C13_lossy_above_maximum :
    ∃ s, tryCompressUnivariate exactLog2 (.absolute (.fin false 1)) [0, 1, 2, 3]
        [0x3f800000, 0x40000000, 0x3f800000, 0x40000000] = .segments [s] ∧
      (FVal.ofBits32 s.maxValue).lt (FVal.ofBits32 0x40000000) = true :=
  ⟨⟨.macaqueV, 0, 3, [4], 0x3f800000, 0x3f800000, [63, 128, 0, 0, 168], []⟩, by decide +kernel, by decide +kernel⟩

end ModelarDB.Props
