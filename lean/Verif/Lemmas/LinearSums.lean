import Verif.Props.C13Linear
import Verif.Props.C38Linear
/-
The error of the sums of linear segments of a series with regular timestamps.
-/
namespace ModelarDB.Lemmas
open Model Spec Props

theorem sliceIncl_getElem? {α : Type} (l : List α) {a b i : Nat} (h : a + i ≤ b) : (sliceIncl l a b)[i]? = l[a + i]? := by
  unfold sliceIncl
  rw [List.getElem?_drop, List.getElem?_take, if_pos (by omega)]

/-- Timestamps with one interval are regular for the code. -/
theorem regular_of_chain {d : Int} (ts : List Int) (h : ts.IsChain fun t u => u - t = d) : areUncompressedTimestampsRegular ts = true := by
  have loop : ∀ (l : List Int) (t : Int), (t :: l).IsChain (fun t u => u - t = d) → regularLoop (wrapI64 d) t l = true := by
    intro l
    induction l with
    | nil => intro t _; rfl
    | cons u l ih =>
      intro t h
      rw [List.isChain_cons_cons] at h
      rw [regularLoop, h.1, if_neg (by simp)]
      exact ih u h.2
  match ts, h with
  | [], _ => rfl
  | [_], _ => rfl
  | t :: u :: rest, h =>
    have hd := (List.isChain_cons_cons.mp h).1
    rw [areUncompressedTimestampsRegular, hd]
    exact loop _ _ h

/-- A number that is zero and not the negative zero. -/
theorem positive_zero {v : Nat} (h32 : v < 2 ^ 32) (hv : v ≠ 0x80000000) (hf : (FVal.ofBits32 v).isFinite = true)
    (hz : numberOf (FVal.ofBits32 v) = 0) : FVal.ofBits32 v = .fin false 0 := by
  cases hx : FVal.ofBits32 v with
  | fin s q =>
    rw [hx] at hz
    have hq : q = 0 := by
      have : ratOf s q = 0 := hz
      unfold ratOf at this
      cases s <;> simpa using this
    subst hq
    cases s with
    | false => rfl
    | true =>
      exfalso
      apply hv
      have := toBits_ofBits h32 (by rw [hx]; rfl)
      rw [hx] at this
      rw [← this]
      rfl
  | _ => rw [hx] at hf; cases hf

/-- The line through two zeros is zero. -/
theorem zero_line {t0 tl : Int} {ts : List Int} (hts : ∀ t ∈ ts, IsI64 t) {w : FVal}
    (hw : w ∈ swingGrid f64Ops t0 tl (.fin false 0) (.fin false 0) ts) : w = .fin false 0 := by
  obtain ⟨t, ht, rfl⟩ := List.mem_map.mp hw
  obtain ⟨s, m, e⟩ := ofInt64_fin (hts t ht)
  have hround : ∀ (fmt : Fmt) (s : Bool), FVal.round fmt s 0 = .fin s 0 := fun fmt s => by
    have : ¬ pow2 fmt.emax ≤ 0 := not_le.mpr (pow2_pos _)
    simp only [FVal.round, roundMag_zero, if_neg this]
  have hline : computeSlopeAndIntercept f64Ops t0 (.fin false 0) tl (.fin false 0) = (.fin false 0, .fin false 0) := by
    unfold computeSlopeAndIntercept
    rw [if_pos (equalOrNan_self _)]
  rw [hline]
  show FVal.convert f32Fmt (FVal.add f64Fmt (FVal.mul f64Fmt (.fin false 0) (FVal.ofInt f64Fmt t)) (.fin false 0)) = _
  rw [e]
  simp only [FVal.mul, zero_mul, hround, FVal.add, Bool.and_false, FVal.ofRat, FVal.signed]
  rw [if_pos (by cases s <;> simp)]
  exact hround f32Fmt false

/-- A segment with a linear model of a series with regular timestamps, whose models end with a value that is read. -/
theorem linear_piece_within {log2 : Log2} {eb : ErrorBound} {ts : List Int} {vs : List Nat} {M T D : ℚ} (hs : NumericSeries eb ts vs M T D)
    {d : Int} (hregular : ts.IsChain fun t u => u - t = d) (hsize : ts.length ≤ 2 ^ 24) (hbig : (ts.length : ℚ) * (M + M * T / D) ≤ 2 ^ 120)
    (hfit : GoodFit (fun i => fitNextModel i eb ts vs) ts.length) {a b : Nat} (ha : a < ts.length)
    (hab : (fitNextModel a eb ts vs).endIndex ≤ b) (hres : b - (fitNextModel a eb ts vs).endIndex ≤ 255) (hb : b < ts.length) {s : Segment}
    (h : (fitNextModel a eb ts vs).finish log2 eb b ts vs = some s) (hkept : (fitNextModel a eb ts vs).bytesPerValue.le (.fin false 4) = true)
    (hty : s.modelType = .swing) {ts' : List Int} {ws : List Nat} (hgrid : grid s = some (ts', ws))
    (hzero : ∀ v ∈ vs, v ≠ 0x80000000) {R : Nat → Nat → Prop} (hR : LinearFaithful R eb ts vs) :
    ∃ e, LinearWithin s ts' ws e ∧ e ≤ 8 * ws.length * linearError M T D + ((1 + 1 / 2 ^ 24) ^ (ts.length + 3) - 1) * exactAbsSum ws := by
  have hlen := hs.length
  obtain ⟨f1, f2, f3, f4⟩ := hfit a ha
  dsimp only at f1 f2 f3 f4
  have hpt := piece_times (vs := vs) hfit (IsPiece.model ha hab hres hb h hkept)
  rcases fitNextModel_result eb ts vs a (by simp [hlen]; omega) with ⟨p, k, hk, hk', hpl, hacc, hm⟩ | ⟨sw, k, hk, hk', hsl, hacc, hm⟩
  · exfalso
    have : (fitNextModel a eb ts vs).modelType = .pmcMean := by rw [hm]; rfl
    rcases finish_fields h with ⟨_, h1, _⟩ | ⟨_, h1, _⟩ <;> rw [h1, this] at hty <;> cases hty
  have hend : (fitNextModel a eb ts vs).endIndex = a + sw.length - 1 := by rw [hm]; rfl
  have hlast : (fitNextModel a eb ts vs).modelLastValue = (sw.model f64Ops).2.toBits32 := by rw [hm]; rfl
  have hel : a + sw.length - 1 < ts.length := by omega
  have htwo : 2 ≤ sw.length := by
    rw [hm] at hkept
    exact kept_length hkept
  rw [zip_drop_take ts vs hk] at hacc
  have hgl := (hR a ha sw hm hkept (by rw [hsl]; exact hacc) ts[a] ts[a + sw.length - 1]
    (List.getElem?_eq_getElem ha) (List.getElem?_eq_getElem hel)).2
  rw [← hsl] at hacc hk
  have hne1 := sliceIncl_ne_nil ts (a := a) (b := a + sw.length - 1) (by omega) hel
  have hne2 := sliceIncl_ne_nil vs (a := a) (b := a + sw.length - 1) (by omega) (by omega)
  obtain ⟨t0, trest, ht0⟩ := List.exists_cons_of_ne_nil hne1
  obtain ⟨v0, vrest, hv0⟩ := List.exists_cons_of_ne_nil hne2
  have hv0m : v0 ∈ vs := by
    have : v0 ∈ sliceIncl vs a (a + sw.length - 1) := by rw [hv0]; simp
    exact sliceIncl_mem this
  rw [ht0, hv0] at hacc
  have hfv : sw.firstValue = FVal.ofBits32 v0 :=
    (swing_firstValue (t0 := t0) (x0 := FVal.ofBits32 v0) ((trest.zip vrest).map fun p => (p.1, FVal.ofBits32 p.2))
      (by rw [← hacc]; rfl)).1
  have hx : (sw.model f64Ops).1 = FVal.ofBits32 v0 := by
    unfold Swing.model
    dsimp only [f64Ops]
    rw [hfv]
    exact convert_finite (hs.finite v0 hv0m)
  have i1 : IsF32 (sw.model f64Ops).1 := by rw [hx]; exact isF32_ofBits v0
  have i2 : IsF32 (sw.model f64Ops).2 := by
    unfold Swing.model
    dsimp only [f64Ops]
    refine isF32_convert _ (fun s q hq => ?_)
    exact nonneg_add_any (fmt := f64Fmt) _ _ s q hq
  have fx : (sw.model f64Ops).1.isFinite = true := by rw [hx]; exact hs.finite v0 hv0m
  have hy := hs.last a ha (by rw [hm]; rfl) hkept
  rw [hlast, ofBits_toBits i2] at hy
  have hxM : |numberOf (sw.model f64Ops).1| ≤ M := by rw [hx]; exact hs.value v0 hv0m
  have hdec : s.modelType = .swing ∧ ∃ last, decodeValuesForSwing s.minValue s.maxValue s.values =
      some ((sw.model f64Ops).1.toBits32, last) ∧
      (last = (sw.model f64Ops).2.toBits32 ∨
        (last = (sw.model f64Ops).1.toBits32 ∧ (sw.model f64Ops).1.eq (sw.model f64Ops).2 = true)) := by
    rw [hm] at h
    exact swing_recovered i1 i2 (finite_not_nan fx) (finite_not_nan hy.1) h
  obtain ⟨_, last, hd1, hd2⟩ := hdec
  have hflast : FVal.ofBits32 last = (sw.model f64Ops).2 ∨
      (FVal.ofBits32 last = (sw.model f64Ops).1 ∧ (sw.model f64Ops).1.eq (sw.model f64Ops).2 = true) := by
    rcases hd2 with rfl | ⟨rfl, hd3⟩
    · left; exact ofBits_toBits i2
    · right; exact ⟨ofBits_toBits i1, hd3⟩
  have hmv : s.modelValues (sliceIncl ts a (fitNextModel a eb ts vs).endIndex) =
      some ((swingGrid f64Ops ts[a] ts[a + sw.length - 1] (sw.model f64Ops).1 (sw.model f64Ops).2
        (sliceIncl ts a (a + sw.length - 1))).map FVal.toBits32) := by
    unfold Segment.modelValues
    rw [hty, hd1, hend, List.getLast?_eq_some_getLast hne1, sliceIncl_getLast ts (by omega) hel, hpt.start]
    dsimp only
    rw [ofBits_toBits i1]
    rw [swingGrid_congr (y := (sw.model f64Ops).2) (y' := FVal.ofBits32 last) hflast]
  have hmlen : ((swingGrid f64Ops ts[a] ts[a + sw.length - 1] (sw.model f64Ops).1 (sw.model f64Ops).2
      (sliceIncl ts a (a + sw.length - 1))).map FVal.toBits32).length = sw.length := by
    unfold swingGrid
    rw [List.length_map, List.length_map, sliceIncl_length ts hel]
    omega
  -- the decoded last value is the value that is read at the last timestamp of the model
  have hlastRead : last = (sw.model f64Ops).2.toBits32 := by
    rcases hd2 with hd2 | ⟨hd2, hd3⟩
    · exact hd2
    · rw [hd2]
      have hconst : swingGrid f64Ops ts[a] ts[a + sw.length - 1] (sw.model f64Ops).1 (sw.model f64Ops).2
          (sliceIncl ts a (a + sw.length - 1)) =
          swingGrid f64Ops ts[a] ts[a + sw.length - 1] (sw.model f64Ops).1 (sw.model f64Ops).1 (sliceIncl ts a (a + sw.length - 1)) :=
        (swingGrid_congr (.inr ⟨rfl, hd3⟩) _).symm
      by_cases hz : numberOf (sw.model f64Ops).1 = 0
      · have hxz := positive_zero (hs.bits v0 hv0m) (hzero v0 hv0m) (hs.finite v0 hv0m) (by rw [← hx]; exact hz)
        rw [hconst, hx, hxz] at hgl
        rw [hx, hxz]
        have := List.mem_of_getLast? hgl
        obtain ⟨w, hw, e⟩ := List.mem_map.mp this
        rw [← e, zero_line (fun t ht => hs.range t (sliceIncl_mem ht)) hw]
      · rw [toBits_of_eq hd3 fx hz (by rw [hx]; exact ok_ofBits v0) (by
          have := ok_ofBits (sw.model f64Ops).2.toBits32
          rwa [ofBits_toBits i2] at this)]
  have hg := model_grid hs.range hs.increasing hs.size hlen hs.bits hfit ha hab hres hb h hkept hmv
    (by rw [hlast]; exact toBits_lt i2) (fun hlt => by rw [hlast]; exact hgl)
  rw [hg] at hgrid
  obtain ⟨rfl, rfl⟩ := Prod.mk.inj (Option.some.inj hgrid)
  generalize hws : ((swingGrid f64Ops ts[a] ts[a + sw.length - 1] (sw.model f64Ops).1 (sw.model f64Ops).2
      (sliceIncl ts a (a + sw.length - 1))).map FVal.toBits32 ++ storedValues log2 eb (fitNextModel a eb ts vs).modelLastValue
        (sliceIncl vs ((fitNextModel a eb ts vs).endIndex + 1) b)) = ws at hg
  have hwl := (grid_length hg).2
  have hsl2 := sliceIncl_length ts (a := a) hb
  have hcount : residualsLength s.residuals = b - (fitNextModel a eb ts vs).endIndex := by
    rcases finish_fields h with ⟨hle, _, _, _, _, hr⟩ | ⟨_, _, r, _, _, _, hr, _⟩
    · rw [hr]
      show 0 = _
      omega
    · rw [hr, residualsLength_append]
      omega
  have hDl : D ≤ (ts[a + sw.length - 1] : ℚ) - ts[a] :=
    List.pairwise_iff_getElem.mp hs.apart a (a + sw.length - 1) ha hel (by omega)
  have hM0 : 0 ≤ M := le_trans (abs_nonneg _) hxM
  have hTn : 0 ≤ T := le_trans (abs_nonneg _) (hs.time _ (List.getElem_mem ha))
  have hX : M * T / ((ts[a + sw.length - 1] : ℚ) - ts[a]) ≤ M * T / D := div_le_div_of_nonneg_left (mul_nonneg hM0 hTn) hs.positive hDl
  have hM : pow2 (-126) ≤ M := by
    refine le_trans (le_of_eq ?_) hs.limit.1
    rw [pow2_eq]; norm_num
  have hlenle : (sliceIncl ts a b).length ≤ ts.length := by omega
  have hcast : ((sliceIncl ts a b).length : ℚ) ≤ ts.length := by exact_mod_cast hlenle
  refine ⟨_, ⟨sw.length, (sw.model f64Ops).1.toBits32, last, ts[a], ts[a + sw.length - 1], ts[b], M, T, _, ?_, htwo, by omega, ?_, ?_, ?_, ?_, ?_, hd1,
    ?_, ?_, ?_, ?_, hM, fun t ht => hs.time t (sliceIncl_mem ht), by linarith [hs.limit.2.2.1], rfl, ?_, rfl⟩, ?_⟩
  · rw [hcount, hsl2]; omega
  · rw [sliceIncl_getElem? ts (by omega), Nat.add_zero, List.getElem?_eq_getElem ha]
  · rw [sliceIncl_getElem? ts (by omega), show a + (sw.length - 1) = a + sw.length - 1 by omega, List.getElem?_eq_getElem hel]
  · rw [sliceIncl_getElem? ts (by omega), show a + ((sliceIncl ts a b).length - 1) = b by omega, List.getElem?_eq_getElem hb]
  · have c := abs_le.mp (hs.time _ (List.getElem_mem ha))
    have c' := abs_le.mp (hs.time _ (List.getElem_mem hb))
    have c2 := hs.limit.2.2.1
    have : ((ts[b] - ts[a] : Int) : ℚ) < ((2 ^ 63 : Int) : ℚ) := by push_cast; linarith
    exact_mod_cast this
  · right
    refine ⟨regular_of_chain (d := d) _ ?_, ?_⟩
    · unfold sliceIncl
      exact (hregular.take _).drop _
    · rw [← hws, List.getElem?_append_left (by omega)]
      rw [List.getLast?_eq_getElem?, hmlen] at hgl
      rw [hgl, hlastRead]
  · rw [ofBits_toBits i1]; exact fx
  · rw [hlastRead, ofBits_toBits i2]; exact hy.1
  · rw [ofBits_toBits i1, ← numberOf_eq]; exact hxM
  · rw [hlastRead, ofBits_toBits i2, ← numberOf_eq]; exact hy.2
  · refine le_trans ?_ hbig
    have : M + M * T / ((ts[a + sw.length - 1] : ℚ) - ts[a]) ≤ M + M * T / D := by linarith
    have h0 : 0 ≤ M + M * T / ((ts[a + sw.length - 1] : ℚ) - ts[a]) := by
      have := div_nonneg (mul_nonneg hM0 hTn) (le_trans hs.positive.le hDl)
      linarith
    exact mul_le_mul hcast this h0 (Nat.cast_nonneg _)
  · have e1 : 2 * (sw.length : ℚ) * (M * T / ((ts[a + sw.length - 1] : ℚ) - ts[a]) * (1 / 2 ^ 44) + M * (1 / 2 ^ 20)) ≤
        8 * ws.length * linearError M T D := by
      have : 8 * (ws.length : ℚ) * linearError M T D = 2 * (ws.length : ℚ) * (M * T / D * (1 / 2 ^ 44) + M * (1 / 2 ^ 20)) := by
        unfold linearError; ring
      rw [this]
      have hn : (sw.length : ℚ) ≤ ws.length := by
        have : sw.length ≤ ws.length := by omega
        exact_mod_cast this
      have h0 := div_nonneg (mul_nonneg hM0 hTn) (le_trans hs.positive.le hDl)
      refine mul_le_mul (by linarith) (by linarith) (by linarith) (by positivity)
    have e2 : ((1 + 1 / 2 ^ 24 : ℚ) ^ (residualsLength s.residuals + 1) - 1) * exactAbsSum ws ≤
        ((1 + 1 / 2 ^ 24) ^ (ts.length + 3) - 1) * exactAbsSum ws :=
      mul_le_mul_of_nonneg_right (sub_le_sub_right (pow_le_pow_right₀ (by norm_num) (by omega)) _) (exactAbsSum_nonneg ws)
    linarith

end ModelarDB.Lemmas
