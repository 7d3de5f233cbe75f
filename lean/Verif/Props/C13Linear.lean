import Verif.Props.C11
import Verif.Props.C12Linear
import Verif.Props.C13
import Verif.Lemmas.Aggregates
import Verif.Spec.LinearExtrema
import Verif.Spec.Faithful
/-
C13 for linear models up to the rounding of the code.
-/
namespace ModelarDB.Props
open Model Spec Lemmas

theorem numberOf_eq (x : FVal) : numberOf x = valueOf x := by cases x <;> rfl

theorem lineThrough_between {t0 tl t : Int} {p q : ℚ} (hlt : t0 < tl) (h1 : t0 ≤ t) (h2 : t ≤ tl) :
    min p q ≤ lineThrough t0 tl p q t ∧ lineThrough t0 tl p q t ≤ max p q := by
  have hD : (0 : ℚ) < (tl : ℚ) - t0 := by
    have : (t0 : ℚ) < tl := by exact_mod_cast hlt
    linarith
  have c1 : (t0 : ℚ) ≤ t := by exact_mod_cast h1
  have c2 : (t : ℚ) ≤ tl := by exact_mod_cast h2
  have hx0 : 0 ≤ ((t : ℚ) - t0) / ((tl : ℚ) - t0) := div_nonneg (by linarith) hD.le
  have hx1 : ((t : ℚ) - t0) / ((tl : ℚ) - t0) ≤ 1 := by rw [div_le_one hD]; linarith
  unfold lineThrough
  generalize ((t : ℚ) - t0) / ((tl : ℚ) - t0) = x at hx0 hx1
  rw [show p + (q - p) * x = p * (1 - x) + q * x by ring]
  have a1 : min p q * (1 - x) ≤ p * (1 - x) := mul_le_mul_of_nonneg_right (min_le_left _ _) (by linarith)
  have a2 : min p q * x ≤ q * x := mul_le_mul_of_nonneg_right (min_le_right _ _) hx0
  have a3 : p * (1 - x) ≤ max p q * (1 - x) := mul_le_mul_of_nonneg_right (le_max_left _ _) (by linarith)
  have a4 : q * x ≤ max p q * x := mul_le_mul_of_nonneg_right (le_max_right _ _) hx0
  exact ⟨by linarith, by linarith⟩

theorem finite_not_nan {x : FVal} (h : x.isFinite = true) : x.isNan = false := by cases x <;> first | rfl | cases h

theorem convert_finite {v : Nat} (h : (FVal.ofBits32 v).isFinite = true) : FVal.convert f32Fmt (FVal.ofBits32 v) = FVal.ofBits32 v := by
  cases hx : FVal.ofBits32 v with
  | fin s q => exact round_mag32 (mag32_ofBits v hx)
  | _ => rw [hx] at h; cases h

theorem lt_iff_of_finite {x y : FVal} (hx : x.isFinite = true) (hy : y.isFinite = true) : x.lt y = true ↔ numberOf x < numberOf y := by
  cases x with
  | fin s q =>
    cases y with
    | fin s' q' =>
      show decide (_ < _) = true ↔ _
      rw [decide_eq_true_iff]
      rfl
    | _ => cases hy
  | _ => cases hx

theorem is_numberOf {x : FVal} (h : x.isFinite = true) : Is x (numberOf x) := by
  cases x with
  | fin s m => exact is_fin s m
  | _ => cases h

theorem min_of_finite {x y : FVal} (hx : x.isFinite = true) (hy : y.isFinite = true) :
    (x.min y).isFinite = true ∧ numberOf (x.min y) = min (numberOf x) (numberOf y) := by
  unfold FVal.min
  rw [finite_not_nan hx, finite_not_nan hy]
  simp only [Bool.false_eq_true, if_false]
  split
  · rename_i h
    exact ⟨hy, (min_eq_right ((lt_iff_of_finite hy hx).mp h).le).symm⟩
  · rename_i h
    exact ⟨hx, (min_eq_left (not_lt.mp fun hc => h ((lt_iff_of_finite hy hx).mpr hc))).symm⟩

theorem max_of_finite {x y : FVal} (hx : x.isFinite = true) (hy : y.isFinite = true) :
    (x.max y).isFinite = true ∧ numberOf (x.max y) = max (numberOf x) (numberOf y) := by
  unfold FVal.max
  rw [finite_not_nan hx, finite_not_nan hy]
  simp only [Bool.false_eq_true, if_false]
  split
  · rename_i h
    exact ⟨hy, (max_eq_right ((lt_iff_of_finite hx hy).mp h).le).symm⟩
  · rename_i h
    exact ⟨hx, (max_eq_left (not_lt.mp fun hc => h ((lt_iff_of_finite hx hy).mpr hc))).symm⟩

theorem min32_of_finite {m n : Nat} (hx : (FVal.ofBits32 m).isFinite = true) (hy : (FVal.ofBits32 n).isFinite = true) :
    FVal.ofBits32 (min32 m n) = (FVal.ofBits32 m).min (FVal.ofBits32 n) := by
  unfold min32 FVal.min
  rw [finite_not_nan hx, finite_not_nan hy]
  simp only [Bool.false_eq_true, if_false]
  split <;> rfl

theorem max32_of_finite {m n : Nat} (hx : (FVal.ofBits32 m).isFinite = true) (hy : (FVal.ofBits32 n).isFinite = true) :
    FVal.ofBits32 (max32 m n) = (FVal.ofBits32 m).max (FVal.ofBits32 n) := by
  unfold max32 FVal.max
  rw [finite_not_nan hx, finite_not_nan hy]
  simp only [Bool.false_eq_true, if_false]
  split <;> rfl

theorem minimumWithin_append {e : ℚ} {m n : FVal} {a b : List FVal} (ha : MinimumWithin e m a) (hb : MinimumWithin e n b) :
    MinimumWithin e (m.min n) (a ++ b) := by
  obtain ⟨h1, ⟨x, hx, h2⟩, h3⟩ := ha
  obtain ⟨k1, ⟨y, hy, k2⟩, k3⟩ := hb
  obtain ⟨g1, g2⟩ := min_of_finite h1 k1
  refine ⟨g1, ?_, fun z hz => ?_⟩
  · rw [g2]
    rcases min_choice (numberOf m) (numberOf n) with h | h
    · exact ⟨x, by simp [hx], by rw [h]; exact h2⟩
    · exact ⟨y, by simp [hy], by rw [h]; exact k2⟩
  · rw [g2]
    rcases List.mem_append.mp hz with h | h
    · have := h3 z h
      have := min_le_left (numberOf m) (numberOf n)
      linarith
    · have := k3 z h
      have := min_le_right (numberOf m) (numberOf n)
      linarith

theorem maximumWithin_append {e : ℚ} {m n : FVal} {a b : List FVal} (ha : MaximumWithin e m a) (hb : MaximumWithin e n b) :
    MaximumWithin e (m.max n) (a ++ b) := by
  obtain ⟨h1, ⟨x, hx, h2⟩, h3⟩ := ha
  obtain ⟨k1, ⟨y, hy, k2⟩, k3⟩ := hb
  obtain ⟨g1, g2⟩ := max_of_finite h1 k1
  refine ⟨g1, ?_, fun z hz => ?_⟩
  · rw [g2]
    rcases max_choice (numberOf m) (numberOf n) with h | h
    · exact ⟨x, by simp [hx], by rw [h]; exact h2⟩
    · exact ⟨y, by simp [hy], by rw [h]; exact k2⟩
  · rw [g2]
    rcases List.mem_append.mp hz with h | h
    · have := h3 z h
      have := le_max_left (numberOf m) (numberOf n)
      linarith
    · have := k3 z h
      have := le_max_right (numberOf m) (numberOf n)
      linarith

/-- An exact minimum of finite values. -/
theorem minimumWithin_of_isMinimum {e : ℚ} (he : 0 ≤ e) {m : Nat} {ws : List Nat} (hne : ws ≠ []) (hfin : ∀ w ∈ ws, (FVal.ofBits32 w).isFinite = true)
    (h : IsMinimum m ws) : MinimumWithin e (FVal.ofBits32 m) (ws.map FVal.ofBits32) := by
  rcases h with ⟨h, _⟩ | ⟨h1, h2, h3⟩
  · obtain ⟨w, rest, rfl⟩ := List.exists_cons_of_ne_nil hne
    have := h w (by simp)
    rw [finite_not_nan (hfin w (by simp))] at this
    cases this
  · refine ⟨hfin m h1, ⟨_, List.mem_map_of_mem h1, by simpa using he⟩, fun x hx => ?_⟩
    obtain ⟨w, hw, rfl⟩ := List.mem_map.mp hx
    have : ¬ numberOf (FVal.ofBits32 w) < numberOf (FVal.ofBits32 m) := fun hc => by
      have := (lt_iff_of_finite (hfin w hw) (hfin m h1)).mpr hc
      rw [h3 w hw] at this
      cases this
    linarith

/-- An exact maximum of finite values. -/
theorem maximumWithin_of_isMaximum {e : ℚ} (he : 0 ≤ e) {m : Nat} {ws : List Nat} (hne : ws ≠ []) (hfin : ∀ w ∈ ws, (FVal.ofBits32 w).isFinite = true)
    (h : IsMaximum m ws) : MaximumWithin e (FVal.ofBits32 m) (ws.map FVal.ofBits32) := by
  rcases h with ⟨h, _⟩ | ⟨h1, h2, h3⟩
  · obtain ⟨w, rest, rfl⟩ := List.exists_cons_of_ne_nil hne
    have := h w (by simp)
    rw [finite_not_nan (hfin w (by simp))] at this
    cases this
  · refine ⟨hfin m h1, ⟨_, List.mem_map_of_mem h1, by simpa using he⟩, fun x hx => ?_⟩
    obtain ⟨w, hw, rfl⟩ := List.mem_map.mp hx
    have : ¬ numberOf (FVal.ofBits32 m) < numberOf (FVal.ofBits32 w) := fun hc => by
      have := (lt_iff_of_finite (hfin m h1) (hfin w hw)).mpr hc
      rw [h3 w hw] at this
      cases this
    linarith

/-- The values that are read from a linear model from `x` to `y` lie between them, up to an error, and one is close to `x`. -/
theorem line_extrema {t0 tl : Int} {x y : FVal} {M T D : ℚ} (hx : x.isFinite = true) (hy : y.isFinite = true) (ox : Ok x)
    (hxM : |numberOf x| ≤ M) (hyM : |numberOf y| ≤ M) (hlimit : (1 / 2) ^ 126 ≤ M ∧ M ≤ 2 ^ 120 ∧ T ≤ 2 ^ 61 ∧ M * T / D ≤ 2 ^ 120)
    (hD : 0 < D) (hDl : D ≤ (tl : ℚ) - t0) {ts : List Int} (hts : ∀ t ∈ ts, t0 ≤ t ∧ t ≤ tl) (hT : ∀ t ∈ ts, |(t : ℚ)| ≤ T) (h0 : t0 ∈ ts) (hl : tl ∈ ts) :
    (∀ w ∈ swingGrid f64Ops t0 tl x y ts, min (numberOf x) (numberOf y) - linearError M T D ≤ numberOf w ∧
      numberOf w ≤ max (numberOf x) (numberOf y) + linearError M T D) ∧
    (∃ w ∈ swingGrid f64Ops t0 tl x y ts, |numberOf x - numberOf w| ≤ linearError M T D) ∧
    (∃ w ∈ swingGrid f64Ops t0 tl x y ts, |numberOf y - numberOf w| ≤ linearError M T D) := by
  have hlt : t0 < tl := by
    have : (0 : ℚ) < (tl : ℚ) - t0 := by linarith
    have : (t0 : ℚ) < tl := by linarith
    exact_mod_cast this
  have hT0 := hT t0 h0
  have hTl := hT tl hl
  have hspan : tl - t0 < 2 ^ 63 := by
    have a := abs_le.mp hT0
    have b := abs_le.mp hTl
    have c := hlimit.2.2.1
    have : ((tl - t0 : Int) : ℚ) < ((2 ^ 63 : Int) : ℚ) := by push_cast; linarith
    exact_mod_cast this
  have hM0 : 0 ≤ M := le_trans (abs_nonneg _) hxM
  have hTn : 0 ≤ T := le_trans (abs_nonneg _) hT0
  have hX : M * T / ((tl : ℚ) - t0) ≤ M * T / D := div_le_div_of_nonneg_left (mul_nonneg hM0 hTn) hD hDl
  have hM : pow2 (-126) ≤ M := by
    refine le_trans (le_of_eq ?_) hlimit.1
    rw [pow2_eq]; norm_num
  have hread : ∀ t ∈ ts, |valueOf (f64Ops.toValue (lineAt f64Ops (computeSlopeAndIntercept f64Ops t0 x tl y).1
      (computeSlopeAndIntercept f64Ops t0 x tl y).2 t)) - lineThrough t0 tl (numberOf x) (numberOf y) t| ≤ linearError M T D := by
    intro t ht
    have := near_read (is_numberOf hx) (is_numberOf hy) ox hxM hyM hM hlimit.2.1 hlimit.2.2.2 hlt hspan hT0 (hT t ht)
      (by linarith [hlimit.2.2.1]) hX (hts t ht).1 (hts t ht).2
    refine this.trans (le_of_eq ?_)
    unfold linearError
    ring
  have hD1 : (0 : ℚ) < (tl : ℚ) - t0 := by linarith
  refine ⟨fun w hw => ?_, ⟨_, List.mem_map_of_mem h0, ?_⟩, ⟨_, List.mem_map_of_mem hl, ?_⟩⟩
  · obtain ⟨t, ht, rfl⟩ := List.mem_map.mp hw
    have a := abs_le.mp (hread t ht)
    obtain ⟨b, c⟩ := lineThrough_between (p := numberOf x) (q := numberOf y) hlt (hts t ht).1 (hts t ht).2
    rw [numberOf_eq (f64Ops.toValue _)]
    exact ⟨by linarith, by linarith⟩
  · have := hread t0 h0
    rw [show lineThrough t0 tl (numberOf x) (numberOf y) t0 = numberOf x by simp [lineThrough]] at this
    rw [numberOf_eq (f64Ops.toValue _), abs_sub_comm]
    exact this
  · have := hread tl hl
    rw [show lineThrough t0 tl (numberOf x) (numberOf y) tl = numberOf y by
      unfold lineThrough; rw [div_self hD1.ne']; ring] at this
    rw [numberOf_eq (f64Ops.toValue _), abs_sub_comm]
    exact this

/-- Two equal numbers that are not zero have the same bits. -/
theorem toBits_of_eq {x y : FVal} (h : x.eq y = true) (hx : x.isFinite = true) (h0 : numberOf x ≠ 0) (ox : Ok x) (oy : Ok y) : x = y := by
  cases x with
  | fin s q =>
    cases y with
    | fin s' q' =>
      have he : ratOf s q = ratOf s' q' := by
        have : decide (FVal.signed s q = FVal.signed s' q') = true := h
        exact of_decide_eq_true this
      have h1 : 0 ≤ q := ox
      have h2 : 0 ≤ q' := oy
      have h3 : ratOf s q ≠ 0 := h0
      unfold ratOf at he h3
      cases s <;> cases s' <;> simp only [Bool.false_eq_true, if_false, if_true] at he h3
      · rw [he]
      · exact absurd (le_antisymm (by linarith) h1) h3
      · exact absurd (show -q = 0 by linarith) h3
      · rw [show q = q' by linarith]
    | nan => cases h
    | inf t => cases h
  | _ => cases hx

/-- The values that are read begin with those of the model. -/
theorem grid_modelValues {s : Segment} {ts : List Int} {ws : List Nat} (h : grid s = some (ts, ws)) :
    ∃ mv rest, s.modelValues (ts.take (ts.length - residualsLength s.residuals)) = some mv ∧ ws = mv ++ rest := by
  unfold grid at h
  cases hd : decompressAllTimestamps s.startTime s.endTime s.timestamps with
  | none => rw [hd] at h; cases h
  | some ts' =>
    rw [hd] at h
    dsimp only at h
    split at h
    · cases h
    · cases hm : s.modelValues (ts'.take (ts'.length - residualsLength s.residuals)) with
      | none => rw [hm] at h; cases h
      | some mv =>
        rw [hm] at h
        dsimp only at h
        split at h
        · obtain ⟨rfl, rfl⟩ := Prod.mk.inj (Option.some.inj h)
          exact ⟨mv, [], hm, by simp⟩
        · split at h
          · cases h
          · split at h
            · cases h
            · obtain ⟨rfl, rfl⟩ := Prod.mk.inj (Option.some.inj h)
              exact ⟨mv, _, hm, rfl⟩

/-- A segment with a linear model. -/
theorem linear_piece_extrema {log2 : Log2} {eb : ErrorBound} {ts : List Int} {vs : List Nat} {M T D : ℚ} (hs : NumericSeries eb ts vs M T D)
    (hE : 0 ≤ linearError M T D) (hfit : GoodFit (fun i => fitNextModel i eb ts vs) ts.length) {a b : Nat} (ha : a < ts.length)
    (hab : (fitNextModel a eb ts vs).endIndex ≤ b) (hres : b - (fitNextModel a eb ts vs).endIndex ≤ 255) (hb : b < ts.length) {s : Segment}
    (h : (fitNextModel a eb ts vs).finish log2 eb b ts vs = some s) (hkept : (fitNextModel a eb ts vs).bytesPerValue.le (.fin false 4) = true)
    (hty : s.modelType = .swing) {ts' : List Int} {ws : List Nat} (hgrid : grid s = some (ts', ws))
    (hfollows : FollowsModel s ws ∨ ∃ R, LinearFaithful R eb ts vs)
    (hw : ∀ w ∈ ws, (FVal.ofBits32 w).isFinite = true) :
    MinimumWithin (linearError M T D) (FVal.ofBits32 s.minValue) (ws.map FVal.ofBits32) ∧
    MaximumWithin (linearError M T D) (FVal.ofBits32 s.maxValue) (ws.map FVal.ofBits32) := by
  have hlen := hs.length
  obtain ⟨f1, f2, f3, f4⟩ := hfit a ha
  dsimp only at f1 f2 f3 f4
  have hpt := piece_times (vs := vs) hfit (IsPiece.model ha hab hres hb h hkept)
  rcases fitNextModel_result eb ts vs a (by simp [hlen]; omega) with ⟨p, k, hk, hk', hpl, hacc, hm⟩ | ⟨sw, k, hk, hk', hsl, hacc, hm⟩
  · exfalso
    have : (fitNextModel a eb ts vs).modelType = .pmcMean := by rw [hm]; rfl
    rcases finish_fields h with ⟨_, h1, _⟩ | ⟨_, h1, _⟩ <;> rw [h1, this] at hty <;> cases hty
  have hend : (fitNextModel a eb ts vs).endIndex = a + sw.length - 1 := by rw [hm]; rfl
  have hlast : (fitNextModel a eb ts vs).modelLastValue = (sw.model f64Ops).2.toBits32 := by rw [hm]; rfl
  have hmin : (fitNextModel a eb ts vs).minValue = ((sw.model f64Ops).1.min (sw.model f64Ops).2).toBits32 := by rw [hm]; rfl
  have hmax : (fitNextModel a eb ts vs).maxValue = ((sw.model f64Ops).1.max (sw.model f64Ops).2).toBits32 := by rw [hm]; rfl
  have hel : a + sw.length - 1 < ts.length := by omega
  have htwo : 2 ≤ sw.length := by
    rw [hm] at hkept
    exact kept_length hkept
  rw [zip_drop_take ts vs hk] at hacc
  have hgl' := fun R (hR : LinearFaithful R eb ts vs) => (hR a ha sw hm hkept (by rw [hsl]; exact hacc) ts[a] ts[a + sw.length - 1]
    (List.getElem?_eq_getElem ha) (List.getElem?_eq_getElem hel)).2
  rw [← hsl] at hacc hk
  have hne1 := sliceIncl_ne_nil ts (a := a) (b := a + sw.length - 1) (by omega) hel
  have hne2 := sliceIncl_ne_nil vs (a := a) (b := a + sw.length - 1) (by omega) (by omega)
  obtain ⟨t0, trest, ht0⟩ := List.exists_cons_of_ne_nil hne1
  obtain ⟨v0, vrest, hv0⟩ := List.exists_cons_of_ne_nil hne2
  have hv0m : v0 ∈ vs := by
    have : v0 ∈ sliceIncl vs a (a + sw.length - 1) := by rw [hv0]; simp
    exact sliceIncl_mem this
  rw [ht0, hv0] at hacc
  have hfv : sw.firstValue = FVal.ofBits32 v0 :=
    (swing_firstValue (t0 := t0) (x0 := FVal.ofBits32 v0) ((trest.zip vrest).map fun p => (p.1, FVal.ofBits32 p.2))
      (by rw [← hacc]; rfl)).1
  have hx : (sw.model f64Ops).1 = FVal.ofBits32 v0 := by
    unfold Swing.model
    dsimp only [f64Ops]
    rw [hfv]
    exact convert_finite (hs.finite v0 hv0m)
  have i1 : IsF32 (sw.model f64Ops).1 := by rw [hx]; exact isF32_ofBits v0
  have i2 : IsF32 (sw.model f64Ops).2 := by
    unfold Swing.model
    dsimp only [f64Ops]
    refine isF32_convert _ (fun s q hq => ?_)
    exact nonneg_add_any (fmt := f64Fmt) _ _ s q hq
  have fx : (sw.model f64Ops).1.isFinite = true := by rw [hx]; exact hs.finite v0 hv0m
  have hy := hs.last a ha (by rw [hm]; rfl) hkept
  rw [hlast, ofBits_toBits i2] at hy
  have hdec : s.modelType = .swing ∧ ∃ last, decodeValuesForSwing s.minValue s.maxValue s.values =
      some ((sw.model f64Ops).1.toBits32, last) ∧
      (last = (sw.model f64Ops).2.toBits32 ∨
        (last = (sw.model f64Ops).1.toBits32 ∧ (sw.model f64Ops).1.eq (sw.model f64Ops).2 = true)) := by
    rw [hm] at h
    exact swing_recovered i1 i2 (finite_not_nan fx) (finite_not_nan hy.1) h
  obtain ⟨_, last, hd1, hd2⟩ := hdec
  have hmv : s.modelValues (sliceIncl ts a (fitNextModel a eb ts vs).endIndex) =
      some ((swingGrid f64Ops ts[a] ts[a + sw.length - 1] (sw.model f64Ops).1 (sw.model f64Ops).2
        (sliceIncl ts a (a + sw.length - 1))).map FVal.toBits32) := by
    unfold Segment.modelValues
    rw [hty, hd1, hend, List.getLast?_eq_some_getLast hne1, sliceIncl_getLast ts (by omega) hel, hpt.start]
    dsimp only
    rw [ofBits_toBits i1]
    rw [swingGrid_congr (y := (sw.model f64Ops).2) (y' := FVal.ofBits32 last)]
    rcases hd2 with rfl | ⟨rfl, hd3⟩
    · left; exact ofBits_toBits i2
    · right; exact ⟨ofBits_toBits i1, hd3⟩
  have hmlen : ((swingGrid f64Ops ts[a] ts[a + sw.length - 1] (sw.model f64Ops).1 (sw.model f64Ops).2
      (sliceIncl ts a (a + sw.length - 1))).map FVal.toBits32).length = sw.length := by
    unfold swingGrid
    rw [List.length_map, List.length_map, sliceIncl_length ts hel]
    omega
  -- the residuals are read after the last value of the model
  have hgl : (fitNextModel a eb ts vs).endIndex < b → ((swingGrid f64Ops ts[a] ts[a + sw.length - 1] (sw.model f64Ops).1 (sw.model f64Ops).2
      (sliceIncl ts a (a + sw.length - 1))).map FVal.toBits32).getLast? = some (sw.model f64Ops).2.toBits32 := by
    intro hlt
    rcases hfollows with hfollows | ⟨R, hR⟩
    swap
    · exact hgl' R hR
    have hts' : ts' = sliceIncl ts a b := by
      have := (grid_length hgrid).1
      rw [hpt.start, hpt.stop, hpt.bytes, (slice_timestamps hs.range hs.increasing hs.size hpt.le hb).1] at this
      exact (Option.some.inj this).symm
    have hwl := (grid_length hgrid).2
    have hsl1 := sliceIncl_length ts (a := a) (b := (fitNextModel a eb ts vs).endIndex) (by omega)
    have hsl2 := sliceIncl_length ts (a := a) hb
    rcases finish_fields h with ⟨hle, _⟩ | ⟨_, _, r, _, _, _, hr, _⟩
    · omega
    have hcount : residualsLength s.residuals = b - (fitNextModel a eb ts vs).endIndex := by
      unfold residualsLength
      rw [hr, List.getLast?_concat]
      show ((b - ((fitNextModel a eb ts vs).endIndex + 1)) % 256 + 1) % 256 = _
      omega
    obtain ⟨mv, rest, hmv', hws⟩ := grid_modelValues hgrid
    have htake : ts'.take (ts'.length - residualsLength s.residuals) = sliceIncl ts a (fitNextModel a eb ts vs).endIndex := by
      rw [hts', hcount, hsl2, ← sliceIncl_append ts (a := a) (b := (fitNextModel a eb ts vs).endIndex) (c := b) (by omega) hab,
        List.take_append_of_le_length (by omega), List.take_of_length_le (by omega)]
    rw [htake, hmv] at hmv'
    obtain rfl := Option.some.inj hmv'
    rcases hfollows with hf | hf | ⟨first, last', hf1, hf2, hf3⟩
    · exact absurd hty hf
    · rw [hr] at hf
      simp at hf
    rw [hf1] at hd1
    obtain ⟨rfl, rfl⟩ := Prod.mk.inj (Option.some.inj hd1)
    have hidx : ws.length - residualsLength s.residuals - 1 = sw.length - 1 := by
      rw [hwl, hts', hcount, hsl2]
      omega
    rw [hidx, hws, List.getElem?_append_left (by omega)] at hf2
    rw [List.getLast?_eq_getElem?, hmlen, hf2]
    rcases hd2 with rfl | ⟨rfl, hd3⟩
    · rfl
    · rw [ofBits_toBits i1] at hf3
      rw [toBits_of_eq hd3 fx hf3 (by rw [hx]; exact ok_ofBits v0) (by
        have := ok_ofBits (sw.model f64Ops).2.toBits32
        rwa [ofBits_toBits i2] at this)]
  have hg := model_grid hs.range hs.increasing hs.size hlen hs.bits hfit ha hab hres hb h hkept hmv
    (by rw [hlast]; exact toBits_lt i2) (fun hlt => by rw [hlast]; exact hgl hlt)
  rw [hg] at hgrid
  obtain ⟨rfl, rfl⟩ := Prod.mk.inj (Option.some.inj hgrid)
  have hxM : |numberOf (sw.model f64Ops).1| ≤ M := by rw [hx]; exact hs.value v0 hv0m
  have hsub : ∀ t ∈ sliceIncl ts a (a + sw.length - 1), t ∈ ts := fun t ht => sliceIncl_mem ht
  have hDl : D ≤ (ts[a + sw.length - 1] : ℚ) - ts[a] :=
    List.pairwise_iff_getElem.mp hs.apart a (a + sw.length - 1) ha hel (by omega)
  have hbetween : ∀ t ∈ sliceIncl ts a (a + sw.length - 1), ts[a] ≤ t ∧ t ≤ ts[a + sw.length - 1] := by
    intro t ht
    have hpw := hs.increasing.sublist (sliceIncl_sublist ts a (a + sw.length - 1))
    have e0 := sliceIncl_head ts (show a ≤ a + sw.length - 1 by omega) hel
    have e1 := sliceIncl_getLast ts (show a ≤ a + sw.length - 1 by omega) hel
    rw [List.head_eq_getElem] at e0
    rw [List.getLast_eq_getElem] at e1
    rw [← e0, ← e1]
    obtain ⟨i, hi, rfl⟩ := List.mem_iff_getElem.mp ht
    constructor
    · rcases Nat.eq_zero_or_pos i with h | h
      · simp only [h, le_refl]
      · exact Int.le_of_lt (List.pairwise_iff_getElem.mp hpw 0 i (by omega) hi h)
    · rcases Nat.eq_or_lt_of_le (show i ≤ (sliceIncl ts a (a + sw.length - 1)).length - 1 by omega) with h | h
      · simp only [h, le_refl]
      · exact Int.le_of_lt (List.pairwise_iff_getElem.mp hpw i _ hi (by omega) h)
  have h0 : ts[a] ∈ sliceIncl ts a (a + sw.length - 1) := by
    rw [← sliceIncl_head ts (show a ≤ a + sw.length - 1 by omega) hel]; exact List.head_mem hne1
  have hl : ts[a + sw.length - 1] ∈ sliceIncl ts a (a + sw.length - 1) := by
    rw [← sliceIncl_getLast ts (show a ≤ a + sw.length - 1 by omega) hel]; exact List.getLast_mem hne1
  obtain ⟨k1, k2, k3⟩ := line_extrema fx hy.1 (by rw [hx]; exact ok_ofBits v0) hxM hy.2 hs.limit hs.positive hDl hbetween
    (fun t ht => hs.time t (hsub t ht)) h0 hl
  have hmapped : ((swingGrid f64Ops ts[a] ts[a + sw.length - 1] (sw.model f64Ops).1 (sw.model f64Ops).2
        (sliceIncl ts a (a + sw.length - 1))).map FVal.toBits32).map FVal.ofBits32 =
      swingGrid f64Ops ts[a] ts[a + sw.length - 1] (sw.model f64Ops).1 (sw.model f64Ops).2 (sliceIncl ts a (a + sw.length - 1)) := by
    rw [List.map_map]
    conv => rhs; rw [← List.map_id (swingGrid _ _ _ _ _ _)]
    exact List.map_congr_left fun w hw => ofBits_toBits (isF32_swingGrid w hw)
  obtain ⟨m1, m2⟩ := min_of_finite fx hy.1
  obtain ⟨x1, x2⟩ := max_of_finite fx hy.1
  have hmodelMin : MinimumWithin (linearError M T D) (FVal.ofBits32 (fitNextModel a eb ts vs).minValue)
      (swingGrid f64Ops ts[a] ts[a + sw.length - 1] (sw.model f64Ops).1 (sw.model f64Ops).2 (sliceIncl ts a (a + sw.length - 1))) := by
    rw [hmin, ofBits_toBits (isF32_min i1 i2)]
    refine ⟨m1, ?_, fun w hw => by rw [m2]; exact (k1 w hw).1⟩
    rw [m2]
    rcases min_choice (numberOf (sw.model f64Ops).1) (numberOf (sw.model f64Ops).2) with e | e <;> rw [e]
    · exact k2
    · exact k3
  have hmodelMax : MaximumWithin (linearError M T D) (FVal.ofBits32 (fitNextModel a eb ts vs).maxValue)
      (swingGrid f64Ops ts[a] ts[a + sw.length - 1] (sw.model f64Ops).1 (sw.model f64Ops).2 (sliceIncl ts a (a + sw.length - 1))) := by
    rw [hmax, ofBits_toBits (isF32_max i1 i2)]
    refine ⟨x1, ?_, fun w hw => by rw [x2]; exact (k1 w hw).2⟩
    rw [x2]
    rcases max_choice (numberOf (sw.model f64Ops).1) (numberOf (sw.model f64Ops).2) with e | e <;> rw [e]
    · exact k2
    · exact k3
  rw [List.map_append, hmapped]
  rcases finish_fields h with ⟨hle, _, h2, h3, _, _⟩ | ⟨hlt, _, r, hr, h2, h3, _, _⟩
  · have hnil : sliceIncl vs ((fitNextModel a eb ts vs).endIndex + 1) b = [] := by
      unfold sliceIncl
      rw [List.drop_eq_nil_iff, List.length_take]
      omega
    rw [h2, h3, hnil]
    simp only [storedValues, List.map_nil, List.append_nil]
    exact ⟨hmodelMin, hmodelMax⟩
  · have hfin : ∀ w ∈ storedValues log2 eb (fitNextModel a eb ts vs).modelLastValue (sliceIncl vs ((fitNextModel a eb ts vs).endIndex + 1) b),
        (FVal.ofBits32 w).isFinite = true := fun w hw' => hw w (List.mem_append_right _ hw')
    have hne3 : storedValues log2 eb (fitNextModel a eb ts vs).modelLastValue (sliceIncl vs ((fitNextModel a eb ts vs).endIndex + 1) b) ≠ [] := by
      obtain ⟨v, rest, hv⟩ := List.exists_cons_of_ne_nil (sliceIncl_ne_nil vs (a := (fitNextModel a eb ts vs).endIndex + 1) (b := b) (by omega) (by omega))
      rw [hv, storedValues]
      exact List.cons_ne_nil _ _
    have hresMin := minimumWithin_of_isMinimum hE hne3 hfin (withoutFirst_isMinimum log2 eb _ _)
    have hresMax := maximumWithin_of_isMaximum hE hne3 hfin (withoutFirst_isMaximum log2 eb _ _)
    rw [h2, h3, hr]
    refine ⟨?_, ?_⟩
    · have := minimumWithin_append hmodelMin hresMin
      rw [← min32_of_finite hmodelMin.1 hresMin.1] at this
      exact this
    · have := maximumWithin_append hmodelMax hresMax
      rw [← max32_of_finite hmodelMax.1 hresMax.1] at this
      exact this

/-- **C13** for any model of a series of finite numbers: the stored minimum and maximum of every segment are those of the finite values that are read
from it, up to the rounding of linear models, if the last value of the model is the value that is read at its last timestamp. -/
theorem C13_linear_rounding_partial (log2 : Log2) (eb : ErrorBound) (ts : List Int) (vs : List Nat) (M T D : ℚ) (hs : NumericSeries eb ts vs M T D) :
    ∃ segments, tryCompressUnivariate log2 eb ts vs = .segments segments ∧
      ∀ s ∈ segments, ∀ ts' ws, grid s = some (ts', ws) → (FollowsModel s ws ∨ ∃ R, LinearFaithful R eb ts vs) → (∀ w ∈ ws, (FVal.ofBits32 w).isFinite = true) →
          MinimumWithin (linearError M T D) (FVal.ofBits32 s.minValue) (ws.map FVal.ofBits32) ∧
          MaximumWithin (linearError M T D) (FVal.ofBits32 s.maxValue) (ws.map FVal.ofBits32) := by
  have hnonan : ∀ v ∈ vs, (FVal.ofBits32 v).isNan = false := fun v hv => finite_not_nan (hs.finite v hv)
  have hM0 : 0 ≤ M := le_trans (by positivity) hs.limit.1
  have hT0 : 0 ≤ T := le_trans (abs_nonneg _) (hs.time _ (List.head_mem hs.nonempty))
  have hE : 0 ≤ linearError M T D := by
    unfold linearError
    have := div_nonneg (mul_nonneg hM0 hT0) hs.positive.le
    positivity
  obtain ⟨segments, hseg, hall⟩ := C13_min_max_partial log2 eb hs.valid ts vs hs.length hs.nonempty hs.range hs.increasing hs.size hs.bits hnonan
  have hfit := goodFit_fitNextModel eb ts vs hs.length
  obtain ⟨segments', hseg', hchain⟩ := tryCompressWith_chain (log2 := log2) (eb := eb) hfit hs.nonempty hs.length
  have hsame : segments = segments' := by
    have := hseg.symm.trans hseg'
    injection this
  subst hsame
  refine ⟨segments, hseg, fun s hsm ts' ws hg hfollows hw => ?_⟩
  obtain ⟨a, b, hp⟩ := chain_mem hchain hsm
  by_cases hty : s.modelType ≠ .swing
  · obtain ⟨ts'', ws', hg', h1, h2⟩ := hall s hsm hty
    obtain ⟨rfl, rfl⟩ := Prod.mk.inj (Option.some.inj (hg.symm.trans hg'))
    have hne : ws ≠ [] := by
      obtain ⟨hab, hb, k1, k2, k3⟩ := piece_times hfit hp
      have := (grid_length hg).1
      rw [k1, k2, k3, (slice_timestamps hs.range hs.increasing hs.size hab hb).1] at this
      injection this with this
      have hl := (grid_length hg).2
      intro hc
      rw [hc] at hl
      have := List.length_eq_zero_iff.mp hl.symm
      exact sliceIncl_ne_nil ts hab hb (by simp_all)
    exact ⟨minimumWithin_of_isMinimum hE hne hw h1, maximumWithin_of_isMaximum hE hne hw h2⟩
  · rcases hp with ⟨ha, hab, hres, hb, h, hkept⟩ | ⟨hab, hb, h⟩
    · exact linear_piece_extrema hs hE hfit ha hab hres hb h hkept (not_not.mp hty) hg hfollows hw
    · exfalso
      apply hty
      unfold compressResidualsInSeparateSegment at h
      rw [List.getElem?_eq_getElem (by omega), List.getElem?_eq_getElem hb] at h
      injection h with h
      rw [← h]
      exact ModelType.noConfusion

/-- The segment of `risingSeries`. -/
def risingSegment : Segment := ⟨.swing, 1658671178037, 1658671178044, [8], 1110782739, 1110966237, [], []⟩

/-- The values that are read from it. -/
def risingRead : List Nat := [1110782736, 1110808944, 1110835160, 1110861376, 1110887592, 1110913808, 1110940016, 1110966232]

theorem risingSeries_numeric : NumericSeries .lossless risingSeries.1 risingSeries.2 50 1658671178044 1 where
  valid := Or.inl rfl
  length := rfl
  nonempty := by decide
  range := by decide +kernel
  increasing := by unfold StrictlyIncreasing; decide +kernel
  size := by decide
  bits := by decide
  finite := by decide +kernel
  value := by decide +kernel
  time := by decide +kernel
  apart := by decide +kernel
  positive := by norm_num
  limit := by norm_num
  last := by decide +kernel

/-- The series whose segment reads a value below its minimum satisfies the conditions of `C13_linear_rounding_partial`, which allows a difference of
about one and a fifth; it would be much smaller if the timestamps were. -/
example : tryCompressUnivariate exactLog2 .lossless risingSeries.1 risingSeries.2 = .segments [risingSegment] ∧
    grid risingSegment = some (risingSeries.1, risingRead) ∧ FollowsModel risingSegment risingRead ∧
    (∀ w ∈ risingRead, (FVal.ofBits32 w).isFinite = true) ∧ linearError 50 1658671178044 1 < 1.2 :=
  ⟨by decide +kernel, by decide +kernel, Or.inr (Or.inl rfl), by decide +kernel, by unfold linearError; norm_num⟩

end ModelarDB.Props
