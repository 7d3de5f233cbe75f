import Verif.Lemmas.Rounding
import Verif.Lemmas.FloatBits
/-
The linear model with the rounding of binary64.
-/
namespace ModelarDB.Lemmas
open Model Spec

/-- The intercept belongs to the slope. -/
def Through (x0 : FVal) (t0 : Int) (a b : FVal) (σ : ℚ) : Prop :=
  b = f64Ops.sub x0 (f64Ops.mul a (f64Ops.ofInt t0)) ∨ (σ = 0 ∧ b = x0)

/-- A line is evaluated with a small error. -/
theorem near_lineAt {a b x0 : FVal} {σ v0 M g T : ℚ} {t0 t : Int} (oa : Ok a) (ox : Ok x0) (ha : Is a σ) (hx : Is x0 v0)
    (hb : Through x0 t0 a b σ) (hσ : |σ| ≤ g) (h0 : |v0| ≤ M) (hM : pow2 (-126) ≤ M) (ht0 : |(t0 : ℚ)| ≤ T) (ht : |(t : ℚ)| ≤ T)
    (hT : T ≤ 2 ^ 64) (hbig : g * T + M ≤ 2 ^ 200) :
    Near (lineAt f64Ops a b t) (v0 + σ * (t - t0)) ((g * T + M) * (1 / 2 ^ 49)) := by
  have hg : 0 ≤ g := le_trans (abs_nonneg _) hσ
  have hT0 : 0 ≤ T := le_trans (abs_nonneg _) ht
  have hA : 0 ≤ g * T := mul_nonneg hg hT0
  have htiny := tiny_le hM
  have htp := tiny_pos
  have hM0 : 0 ≤ M := le_trans (abs_nonneg _) h0
  have mulT : ∀ n : Int, |(n : ℚ)| ≤ T → Near (f64Ops.mul a (f64Ops.ofInt n)) (σ * n) (g * T * (4 / 2 ^ 53) + tiny) := by
    intro n hn
    have h1 : Near (FVal.ofInt f64Fmt n) n (T * (1 / 2 ^ 52)) :=
      (ofInt64 (le_trans hn hT)).mono (by linarith)
    refine (mul64 oa (ok_ofInt n) (near_of_is ha) h1 hσ hn (le_refl _) ?_).mono ?_
    · rw [add_zero]
      have : g * (T + T * (1 / 2 ^ 52)) = g * T * (1 + 1 / 2 ^ 52) := by ring
      rw [this]
      linarith
    · have e1 : g * (T + T * (1 / 2 ^ 52)) = g * T * (1 + 1 / 2 ^ 52) := by ring
      have e2 : T * (1 / 2 ^ 52) * g = g * T * (1 / 2 ^ 52) := by ring
      rw [add_zero, e1, e2]
      linarith
  have habs : ∀ n : Int, |(n : ℚ)| ≤ T → |σ * n| ≤ g * T := by
    intro n hn
    rw [abs_mul]
    exact mul_le_mul hσ hn (abs_nonneg _) hg
  have hnx : Near x0 v0 0 := near_of_is hx
  rw [show v0 + σ * ((t : ℚ) - t0) = σ * t + (v0 - σ * t0) by ring]
  unfold lineAt
  rcases hb with rfl | ⟨rfl, rfl⟩
  · have hi : Near (f64Ops.sub x0 (f64Ops.mul a (f64Ops.ofInt t0))) (v0 - σ * t0)
        (g * T * (6 / 2 ^ 53) + M * (2 / 2 ^ 53) + 3 * tiny) := by
      refine (sub64 hnx (mulT t0 ht0) (B := M + g * T + (g * T * (4 / 2 ^ 53) + tiny)) ?_ ?_).mono ?_
      · have := habs t0 ht0
        linarith
      · linarith
      · linarith
    have h3 : |v0 - σ * t0| ≤ M + g * T := by
      have a1 := abs_le.mp (habs t0 ht0)
      have a2 := abs_le.mp h0
      exact abs_le.mpr ⟨by linarith, by linarith⟩
    have h4 := habs t ht
    refine (add64 (mulT t ht) hi (B := g * T + (M + g * T) + (g * T * (4 / 2 ^ 53) + tiny) +
      (g * T * (6 / 2 ^ 53) + M * (2 / 2 ^ 53) + 3 * tiny)) ?_ ?_).mono ?_
    · linarith
    · linarith
    · linarith
  · have h4 := habs t ht
    refine (add64 (mulT t ht) (q := v0 - 0 * t0) (e₂ := 0) (by simpa using hnx)
      (B := g * T + M + (g * T * (4 / 2 ^ 53) + tiny)) ?_ ?_).mono ?_
    · rw [zero_mul, zero_mul, sub_zero, abs_zero]; linarith
    · linarith
    · linarith

/-- The line through two points. -/
theorem line64 {x0 w : FVal} {v0 q e M : ℚ} {t0 t : Int} (hx : Is x0 v0) (hw : Near w q e)
    (h0 : |v0| ≤ M) (hq : |q| ≤ 2 * M) (he : e ≤ M * (3 / 2 ^ 53)) (hM : pow2 (-126) ≤ M) (hbig : M ≤ 2 ^ 200)
    (ht : t0 < t) (hd : t - t0 < 2 ^ 63) :
    ∃ σ, Is (computeSlopeAndIntercept f64Ops t0 x0 t w).1 σ ∧ Ok (computeSlopeAndIntercept f64Ops t0 x0 t w).1 ∧
      Through x0 t0 (computeSlopeAndIntercept f64Ops t0 x0 t w).1 (computeSlopeAndIntercept f64Ops t0 x0 t w).2 σ ∧
      |v0 + σ * (t - t0) - q| ≤ M * (1 / 2 ^ 48) := by
  have htiny := tiny_le hM
  have htp := tiny_pos
  have hM0 : 0 ≤ M := le_trans (abs_nonneg _) h0
  obtain ⟨r, hr, her⟩ := hw
  unfold computeSlopeAndIntercept
  rw [hx.equalOrNan hr]
  by_cases h : v0 = r
  · refine ⟨0, ?_, ?_, ?_, ?_⟩
    · simp only [h, decide_true, if_true]; exact ⟨false, 0, rfl, rfl⟩
    · simp only [h, decide_true, if_true]; exact le_refl (0 : ℚ)
    · simp only [h, decide_true, if_true]; exact Or.inr ⟨rfl, rfl⟩
    · rw [zero_mul, add_zero, h]
      refine le_trans her (le_trans he ?_)
      linarith
  · have hw' : wrapI64 (t - t0) = t - t0 := wrapI64_of_range (by unfold IsI64; omega)
    simp only [h, decide_false, Bool.false_eq_true, if_false, hw']
    obtain ⟨r', hr', her'⟩ := sub64 (x := w) (y := x0) (q := v0) ⟨r, hr, her⟩ (near_of_is hx)
      (B := 3 * M + M * (3 / 2 ^ 53)) (by linarith) (by linarith)
    have h1 : |r' - (q - v0)| ≤ M * (7 / 2 ^ 53) := le_trans her' (by linarith)
    have h2 : |r'| ≤ 3 * M + M * (7 / 2 ^ 53) := by
      have a := abs_le.mp h1
      have b := abs_le.mp hq
      have c := abs_le.mp h0
      exact abs_le.mpr ⟨by linarith, by linarith⟩
    obtain ⟨σ, hσ, hσe⟩ := div64 (D := t - t0) (ok_add : Ok (FVal.sub f64Fmt w x0)) hr' (by omega) (by omega) (by linarith)
    refine ⟨σ, hσ, ok_div ok_add (ok_ofInt _), Or.inl rfl, ?_⟩
    push_cast at hσe
    have a := abs_le.mp hσe
    have b := abs_le.mp h1
    exact abs_le.mpr ⟨by linarith, by linarith⟩

/-- Points that the linear model can be used for: `M` is a bound for values and deviations, `T` for timestamps and `G` for the slopes of the
lines from the first point to the ends of the error bounds of the others. -/
structure RoundAdm (eb : ErrorBound) (t0 : Int) (v0 M G T : ℚ) (p : Pt) : Prop where
  after : t0 < p.t
  range : p.t - t0 < 2 ^ 63
  value : Is p.x p.v
  ok : Ok p.x
  dev : p.d = maximumAllowedDeviation eb p.x
  isDev : Is p.d p.δ
  nonneg : 0 ≤ p.δ
  time : |(p.t : ℚ)| ≤ T
  small : |p.v| ≤ M
  smallDev : p.δ ≤ M
  steep : |p.v - v0| + p.δ + M * (1 / 2 ^ 48) ≤ G * (p.t - t0)

theorem round_acc {eb : ErrorBound} {t0 : Int} {x0 : FVal} {v0 M G T : ℚ} (hx : Is x0 v0) (ox : Ok x0) (h0 : |v0| ≤ M)
    (hM : pow2 (-126) ≤ M) (ht0 : |(t0 : ℚ)| ≤ T) (hT : T ≤ 2 ^ 64) (hG : 0 ≤ G) (hbig : G * T + M ≤ 2 ^ 150) :
    SwingAcc f64Ops t0 x0 v0 eb (RoundAdm eb t0 v0 M G T) ((G * T + M) * (1 / 2 ^ 48)) (fun σ => |σ| ≤ G) := by
  have htiny := tiny_le hM
  have htp := tiny_pos
  have hM0 : 0 ≤ M := le_trans (abs_nonneg _) h0
  have hT0 : 0 ≤ T := le_trans (abs_nonneg _) ht0
  have hA : 0 ≤ G * T := mul_nonneg hG hT0
  have line : ∀ p, RoundAdm eb t0 v0 M G T p → ∀ w q, Near w q (M * (3 / 2 ^ 53)) → |q| ≤ 2 * M →
      |q - v0| + M * (1 / 2 ^ 48) ≤ G * (p.t - t0) →
      ∃ σ, LineOK f64Ops t0 v0 (RoundAdm eb t0 v0 M G T) ((G * T + M) * (1 / 2 ^ 48)) (fun σ => |σ| ≤ G)
          (computeSlopeAndIntercept f64Ops t0 x0 p.t w) σ ∧
        |v0 + σ * (p.t - t0) - q| ≤ (G * T + M) * (1 / 2 ^ 48) := by
    intro p hp w q hw hq hst
    obtain ⟨σ, h1, h2, h3, h4⟩ := line64 (t := p.t) hx hw h0 hq (le_refl _) hM (by linarith) hp.after hp.range
    have hD : (0 : ℚ) < (p.t : ℚ) - t0 := by
      have : (t0 : ℚ) < p.t := by exact_mod_cast hp.after
      linarith
    have hσ : |σ| ≤ G := by
      have e1 : |σ| * ((p.t : ℚ) - t0) ≤ G * ((p.t : ℚ) - t0) := by
        have e2 : |σ| * ((p.t : ℚ) - t0) = |σ * ((p.t : ℚ) - t0)| := by rw [abs_mul, abs_of_pos hD]
        rw [e2]
        have a := abs_le.mp h4
        have b := abs_le.mp (le_refl |q - v0|)
        exact abs_le.mpr ⟨by linarith, by linarith⟩
      exact le_of_mul_le_mul_right e1 hD
    have hnear : ∀ p', RoundAdm eb t0 v0 M G T p' → Near (lineAt f64Ops (computeSlopeAndIntercept f64Ops t0 x0 p.t w).1
        (computeSlopeAndIntercept f64Ops t0 x0 p.t w).2 p'.t) (v0 + σ * (p'.t - t0)) ((G * T + M) * (1 / 2 ^ 49)) ∧
        |v0 + σ * (p'.t - t0)| ≤ M + 2 * (G * T) := by
      intro p' hp'
      refine ⟨near_lineAt h2 ox h1 hx h3 hσ h0 hM ht0 hp'.time hT (by linarith), ?_⟩
      have a : |σ * (p'.t - t0)| ≤ G * (2 * T) := by
        rw [abs_mul]
        refine mul_le_mul hσ ?_ (abs_nonneg _) hG
        have b := abs_le.mp hp'.time
        have c := abs_le.mp ht0
        exact abs_le.mpr ⟨by linarith, by linarith⟩
      have a := abs_le.mp a
      have b := abs_le.mp h0
      exact abs_le.mpr ⟨by linarith, by linarith⟩
    refine ⟨σ, ⟨h1, hσ, fun p' hp' => ?_, fun p' hp' => ?_⟩, le_trans h4 (by linarith)⟩
    all_goals
      obtain ⟨n1, n2⟩ := hnear p' hp'
      have hd := hp'.smallDev
      have hdn := hp'.nonneg
    · refine (add64 n1 (near_of_is hp'.isDev) (B := 2 * M + 2 * (G * T) + (G * T + M) * (1 / 2 ^ 49)) ?_ ?_).mono ?_
      · rw [abs_of_nonneg hdn]; linarith
      · linarith
      · linarith
    · refine (sub64 n1 (near_of_is hp'.isDev) (B := 2 * M + 2 * (G * T) + (G * T + M) * (1 / 2 ^ 49)) ?_ ?_).mono ?_
      · rw [abs_of_nonneg hdn]; linarith
      · linarith
      · linarith
  refine ⟨hx, by linarith, fun p hp => hp.after, fun p hp => hp.value, fun p hp => hp.dev, fun p hp => hp.nonneg,
    fun p hp => ?_, fun p hp => ?_⟩
  all_goals
    have hd := hp.smallDev
    have hdn := hp.nonneg
    have hs := hp.small
    have hst := hp.steep
    have a := abs_le.mp (le_refl |p.v - v0|)
    have b := abs_le.mp (le_refl |p.v|)
  · refine line p hp _ _ ((add64 (near_of_is hp.value) (near_of_is hp.isDev) (B := 2 * M) ?_ ?_).mono ?_) ?_ ?_
    · rw [abs_of_nonneg hdn]; linarith
    · linarith
    · linarith
    · exact abs_le.mpr ⟨by linarith, by linarith⟩
    · have : |p.v + p.δ - v0| ≤ |p.v - v0| + p.δ := abs_le.mpr ⟨by linarith, by linarith⟩
      linarith
  · refine line p hp _ _ ((sub64 (near_of_is hp.value) (near_of_is hp.isDev) (B := 2 * M) ?_ ?_).mono ?_) ?_ ?_
    · rw [abs_of_nonneg hdn]; linarith
    · linarith
    · linarith
    · exact abs_le.mpr ⟨by linarith, by linarith⟩
    · have : |p.v - p.δ - v0| ≤ |p.v - v0| + p.δ := abs_le.mpr ⟨by linarith, by linarith⟩
      linarith

/-! ### Magnitudes are not negative -/

structure OkSwing (s : Swing) : Prop where
  first : Ok s.firstValue
  upper : Ok s.upperSlope
  lower : Ok s.lowerSlope
  num : Ok s.numerator
  den : Ok s.denominator

theorem ok_slope {t0 t : Int} {x w : FVal} : Ok (computeSlopeAndIntercept f64Ops t0 x t w).1 := by
  unfold computeSlopeAndIntercept
  split
  · exact le_refl (0 : ℚ)
  · exact ok_div ok_add (ok_ofInt _)

theorem okSwing_step {s : Swing} (h : OkSwing s) (t : Int) {x : FVal} (hx : Ok x) : OkSwing (s.fitDataPoint f64Ops t x).1 := by
  unfold Swing.fitDataPoint
  dsimp only
  split
  · exact ⟨hx, h.upper, h.lower, h.num, h.den⟩
  · split
    · split
      · exact ⟨h.first, hx, hx, h.num, h.den⟩
      · exact h
    · split
      · exact ⟨h.first, ok_slope, ok_slope, h.num, h.den⟩
      · split
        · exact h
        · refine ⟨h.first, ?_, ?_, ok_add, ok_add⟩
          · dsimp only; split
            · exact ok_slope
            · exact h.upper
          · dsimp only; split
            · exact ok_slope
            · exact h.lower

theorem okSwing_acceptAll (points : List (Int × FVal)) (hok : ∀ p ∈ points, Ok p.2) : ∀ {s s' : Swing}, OkSwing s →
    acceptAll (swingStep f64Ops) s points = some s' → OkSwing s' := by
  induction points with
  | nil =>
    intro s s' hs h
    simp only [acceptAll, List.foldlM_nil] at h
    injection h with h
    subst h
    exact hs
  | cons p points ih =>
    intro s s' hs h
    simp only [acceptAll, List.foldlM_cons] at h
    split at h
    · exact ih (fun q hq => hok q (List.mem_cons_of_mem _ hq)) (okSwing_step hs p.1 (hok p List.mem_cons_self)) h
    · cases h

theorem ok_max {x y : FVal} (hx : Ok x) (hy : Ok y) : Ok (x.max y) := by
  unfold FVal.max; split
  · exact hy
  · split
    · exact hx
    · split <;> assumption

theorem ok_min {x y : FVal} (hx : Ok x) (hy : Ok y) : Ok (x.min y) := by
  unfold FVal.min; split
  · exact hy
  · split
    · exact hx
    · split <;> assumption

theorem OkSwing.slope {s : Swing} (h : OkSwing s) : Ok (s.slope f64Ops) :=
  ok_max h.lower (ok_min (ok_div h.num h.den) h.upper)

/-- The line that is read from a linear model whose slope fits the last point up to `E`. -/
theorem core64 {s : Swing} {x0 : FVal} {t0 tl : Int} {v0 vl σ δl E M G T : ℚ} (hs : s.firstValue = x0) (hstart : s.startTime = t0)
    (hstop : s.endTime = tl) (hok : OkSwing s) (h32 : FVal.convert f32Fmt x0 = x0) (hx : Is x0 v0) (hσ : Is (s.slope f64Ops) σ)
    (hσG : |σ| ≤ G) (hl1 : v0 + σ * (tl - t0) ≤ vl + δl + E) (hl2 : vl - δl - E ≤ v0 + σ * (tl - t0))
    (hEM : E ≤ M) (h0 : |v0| ≤ M) (hvl : |vl| ≤ M) (hδl : δl ≤ M) (hM : pow2 (-126) ≤ M) (ht0 : |(t0 : ℚ)| ≤ T)
    (hT : T ≤ 2 ^ 64) (hbig : G * T + M ≤ 2 ^ 100) (hlt : t0 < tl) (hspan : tl - t0 < 2 ^ 63) :
    ∃ L σ' X, ((s.model f64Ops).1 = x0 ∧ (s.model f64Ops).2 = FVal.convert f32Fmt X ∧ Ok X ∧
        Near X (σ * (tl - t0) + v0) (M * (32 / 2 ^ 53))) ∧
      Is (s.model f64Ops).2 L ∧ Ok (s.model f64Ops).2 ∧ |L - (σ * (tl - t0) + v0)| ≤ M * (6 / 2 ^ 24) ∧
      |v0 + σ' * (tl - t0) - L| ≤ 2 * M * (1 / 2 ^ 48) ∧ |(σ' - σ) * (tl - t0)| ≤ M * (1 / 2 ^ 20) ∧
      ∀ t : Int, |(t : ℚ)| ≤ T → Near (lineAt f64Ops
        (computeSlopeAndIntercept f64Ops t0 (s.model f64Ops).1 tl (s.model f64Ops).2).1
        (computeSlopeAndIntercept f64Ops t0 (s.model f64Ops).1 tl (s.model f64Ops).2).2 t) (v0 + σ' * (t - t0))
        ((G * T + M * T / (tl - t0) * (1 / 2 ^ 20) + M) * (1 / 2 ^ 49)) := by
  have htiny := tiny_le hM
  have htp := tiny_pos
  have hM0 : 0 ≤ M := le_trans (abs_nonneg _) h0
  have hT0 : 0 ≤ T := le_trans (abs_nonneg _) ht0
  have hG : 0 ≤ G := le_trans (abs_nonneg _) hσG
  have hA : 0 ≤ G * T := mul_nonneg hG hT0
  have hD1 : (1 : ℚ) ≤ (tl : ℚ) - t0 := by
    have : t0 + 1 ≤ tl := hlt
    have : ((t0 + 1 : Int) : ℚ) ≤ tl := by exact_mod_cast this
    push_cast at this
    linarith
  have hD0 : (0 : ℚ) < (tl : ℚ) - t0 := by linarith
  have hD2 : (tl : ℚ) - t0 ≤ 2 ^ 63 := by
    have : ((tl - t0 : Int) : ℚ) ≤ ((2 ^ 63 : Int) : ℚ) := by exact_mod_cast hspan.le
    push_cast at this
    linarith
  have hp150 : pow2 (-150) ≤ M * (1 / 2 ^ 24) := by
    have : pow2 (-150) = pow2 (-126) * (1 / 2 ^ 24) := by
      rw [show (-150 : Int) = -126 + -24 from rfl, pow2_add, show pow2 (-24) = 1 / 2 ^ 24 by rw [pow2_eq]; norm_num]
    rw [this]
    exact mul_le_mul_of_nonneg_right hM (by norm_num)
  have ox : Ok x0 := hs ▸ hok.first
  have a1 := abs_le.mp h0
  have a2 := abs_le.mp hvl
  -- the last value of the model
  have hSabs : |σ| * ((tl : ℚ) - t0) ≤ 4 * M := by
    have : |σ| * ((tl : ℚ) - t0) = |σ * ((tl : ℚ) - t0)| := by rw [abs_mul, abs_of_pos hD0]
    rw [this]
    exact abs_le.mpr ⟨by linarith, by linarith⟩
  have hw : wrapI64 (tl - t0) = tl - t0 := wrapI64_of_range (by unfold IsI64; omega)
  have hprod : Near (f64Ops.mul (s.slope f64Ops) (f64Ops.ofInt (wrapI64 (tl - t0)))) (σ * (tl - t0)) (M * (16 / 2 ^ 53) + tiny) := by
    rw [hw]
    have hi : Near (FVal.ofInt f64Fmt (tl - t0)) ((tl : ℚ) - t0) (((tl : ℚ) - t0) * (1 / 2 ^ 52)) := by
      have := ofInt64 (n := tl - t0) (by
        push_cast; rw [abs_of_pos hD0]; linarith [show (2 : ℚ) ^ 63 ≤ 2 ^ 64 by norm_num])
      push_cast at this
      rwa [abs_of_pos hD0] at this
    have e1 : (|σ| + 0) * ((tl : ℚ) - t0 + ((tl : ℚ) - t0) * (1 / 2 ^ 52)) = |σ| * ((tl : ℚ) - t0) * (1 + 1 / 2 ^ 52) := by ring
    refine (mul64 hok.slope (ok_ofInt _) (near_of_is hσ) hi (le_refl _) (by rw [abs_of_pos hD0]) (le_refl _) ?_).mono ?_
    · rw [e1]; linarith
    · have e2 : ((tl : ℚ) - t0) * (1 / 2 ^ 52) * |σ| = |σ| * ((tl : ℚ) - t0) * (1 / 2 ^ 52) := by ring
      rw [e1, e2]
      linarith
  have hσD : |σ * ((tl : ℚ) - t0)| ≤ 4 * M := by rw [abs_mul, abs_of_pos hD0]; exact hSabs
  have hsum := add64 hprod (near_of_is hx) (B := 6 * M) (by linarith) (by linarith)
  have hlastabs : |σ * ((tl : ℚ) - t0) + v0| ≤ 3 * M := abs_le.mpr ⟨by linarith, by linarith⟩
  obtain ⟨hlast, oklast⟩ := convert32 ok_add (hsum.mono (e' := M * (32 / 2 ^ 53)) (by linarith)) (B := 4 * M) (by linarith)
    (by linarith)
  have hm1 : (s.model f64Ops).1 = x0 := by
    unfold Swing.model; simp only [hs]; exact h32
  have e : (s.model f64Ops).2 = FVal.convert f32Fmt (FVal.add f64Fmt (f64Ops.mul (s.slope f64Ops)
      (f64Ops.ofInt (wrapI64 (tl - t0)))) x0) := by
    unfold Swing.model; simp only [hs, hstart, hstop]; rfl
  have hm2 : Near (s.model f64Ops).2 (σ * ((tl : ℚ) - t0) + v0) (M * (6 / 2 ^ 24)) := by
    rw [e]
    exact hlast.mono (by linarith)
  have oklast' : Ok (s.model f64Ops).2 := by
    unfold Swing.model; simp only [hs, hstart, hstop]; exact oklast
  obtain ⟨L, hL, hLe⟩ := hm2
  have b1 := abs_le.mp hLe
  have b2 := abs_le.mp hlastabs
  have hLabs : |L| ≤ 2 * (2 * M) := abs_le.mpr ⟨by linarith, by linarith⟩
  rw [hm1]
  obtain ⟨σ', g1, g2, g3, g4⟩ := line64 (t := tl) (M := 2 * M) hx (near_of_is hL) (by linarith) hLabs (by linarith) (by linarith)
    (by linarith) hlt hspan
  have b3 := abs_le.mp g4
  have hdiff : |(σ' - σ) * ((tl : ℚ) - t0)| ≤ M * (1 / 2 ^ 20) := abs_le.mpr ⟨by linarith, by linarith⟩
  have hdiff' : |σ' - σ| ≤ M * (1 / 2 ^ 20) / ((tl : ℚ) - t0) := by
    rw [le_div_iff₀ hD0]
    rw [abs_mul, abs_of_pos hD0] at hdiff
    exact hdiff
  have hσ' : |σ'| ≤ G + M * (1 / 2 ^ 20) / ((tl : ℚ) - t0) := by
    have := abs_add_le (σ' - σ) σ
    rw [sub_add_cancel] at this
    linarith
  have hgT : (G + M * (1 / 2 ^ 20) / ((tl : ℚ) - t0)) * T = G * T + M * T / ((tl : ℚ) - t0) * (1 / 2 ^ 20) := by ring
  have hX0 : 0 ≤ M * T / ((tl : ℚ) - t0) := div_nonneg (mul_nonneg hM0 hT0) hD0.le
  have hX1 : M * T / ((tl : ℚ) - t0) ≤ M * 2 ^ 64 := by
    rw [div_le_iff₀ hD0]
    have c1 : M * T ≤ M * 2 ^ 64 := mul_le_mul_of_nonneg_left hT hM0
    have c2 : M * 2 ^ 64 * 1 ≤ M * 2 ^ 64 * ((tl : ℚ) - t0) := mul_le_mul_of_nonneg_left hD1 (mul_nonneg hM0 (by norm_num))
    linarith
  have hlim : (G + M * (1 / 2 ^ 20) / ((tl : ℚ) - t0)) * T + M ≤ 2 ^ 200 := by
    rw [hgT]
    linarith
  refine ⟨L, σ', _, ⟨rfl, e, ok_add, hsum.mono (by linarith)⟩, hL, ?_, hLe, g4, hdiff, fun t ht => ?_⟩
  · exact oklast'
  · have hline := near_lineAt (t := t) (t0 := t0) g2 ox g1 hx g3 hσ' h0 hM ht0 ht hT hlim
    rw [hgT] at hline
    exact hline

/-- The values read from a linear model whose slope fits all points up to `E`. -/
theorem read64 {s : Swing} {x0 : FVal} {t0 tl t : Int} {v0 vl σ δl E M G T : ℚ} (hs : s.firstValue = x0) (hstart : s.startTime = t0)
    (hstop : s.endTime = tl) (hok : OkSwing s) (h32 : FVal.convert f32Fmt x0 = x0) (hx : Is x0 v0) (hσ : Is (s.slope f64Ops) σ)
    (hσG : |σ| ≤ G) (hl1 : v0 + σ * (tl - t0) ≤ vl + δl + E) (hl2 : vl - δl - E ≤ v0 + σ * (tl - t0))
    (hEM : E ≤ M) (h0 : |v0| ≤ M) (hvl : |vl| ≤ M) (hδl : δl ≤ M) (hM : pow2 (-126) ≤ M) (ht0 : |(t0 : ℚ)| ≤ T)
    (ht : |(t : ℚ)| ≤ T) (hT : T ≤ 2 ^ 64) (hbig : G * T + M ≤ 2 ^ 100) (hGT : G * T * (1 / 2 ^ 49) ≤ M) (hlt : t0 < tl)
    (hspan : tl - t0 < 2 ^ 63) (hbefore : t0 ≤ t) (hafter : t ≤ tl) {v δ : ℚ} (hv1 : v0 + σ * (t - t0) ≤ v + δ + E)
    (hv2 : v - δ - E ≤ v0 + σ * (t - t0)) (hv : |v| ≤ M) (hδ : δ ≤ M) :
    Near (f64Ops.toValue (lineAt f64Ops
      (computeSlopeAndIntercept f64Ops t0 (s.model f64Ops).1 tl (s.model f64Ops).2).1
      (computeSlopeAndIntercept f64Ops t0 (s.model f64Ops).1 tl (s.model f64Ops).2).2 t)) v
      (δ + E + (G * T + M) * (1 / 2 ^ 49) + M * (1 / 2 ^ 19) + M * T / (tl - t0) * (1 / 2 ^ 69)) := by
  have hM0 : 0 ≤ M := le_trans (abs_nonneg _) h0
  have hT0 : 0 ≤ T := le_trans (abs_nonneg _) ht0
  have hG : 0 ≤ G := le_trans (abs_nonneg _) hσG
  have hA : 0 ≤ G * T := mul_nonneg hG hT0
  have hD1 : (1 : ℚ) ≤ (tl : ℚ) - t0 := by
    have : t0 + 1 ≤ tl := hlt
    have : ((t0 + 1 : Int) : ℚ) ≤ tl := by exact_mod_cast this
    push_cast at this
    linarith
  have hD0 : (0 : ℚ) < (tl : ℚ) - t0 := by linarith
  have hp150 : pow2 (-150) ≤ M * (1 / 2 ^ 24) := by
    have : pow2 (-150) = pow2 (-126) * (1 / 2 ^ 24) := by
      rw [show (-150 : Int) = -126 + -24 from rfl, pow2_add, show pow2 (-24) = 1 / 2 ^ 24 by rw [pow2_eq]; norm_num]
    rw [this]
    exact mul_le_mul_of_nonneg_right hM (by norm_num)
  have hX1 : M * T / ((tl : ℚ) - t0) ≤ M * 2 ^ 64 := by
    rw [div_le_iff₀ hD0]
    have c1 : M * T ≤ M * 2 ^ 64 := mul_le_mul_of_nonneg_left hT hM0
    have c2 : M * 2 ^ 64 * 1 ≤ M * 2 ^ 64 * ((tl : ℚ) - t0) := mul_le_mul_of_nonneg_left hD1 (mul_nonneg hM0 (by norm_num))
    linarith
  have hX0 : 0 ≤ M * T / ((tl : ℚ) - t0) := div_nonneg (mul_nonneg hM0 hT0) hD0.le
  have a1 := abs_le.mp h0
  have a2 := abs_le.mp hvl
  have a3 := abs_le.mp hv
  obtain ⟨L, σ', _, _, _, _, _, _, hdiff, hlines⟩ := core64 hs hstart hstop hok h32 hx hσ hσG hl1 hl2 hEM h0 hvl hδl hM ht0 hT hbig hlt hspan
  have hline := hlines t ht
  have htt : |(σ' - σ) * ((t : ℚ) - t0)| ≤ M * (1 / 2 ^ 20) := by
    have c1 : (0 : ℚ) ≤ (t : ℚ) - t0 := by
      have : (t0 : ℚ) ≤ t := by exact_mod_cast hbefore
      linarith
    have c2 : (t : ℚ) - t0 ≤ (tl : ℚ) - t0 := by
      have : (t : ℚ) ≤ tl := by exact_mod_cast hafter
      linarith
    rw [abs_mul, abs_of_nonneg c1]
    rw [abs_mul, abs_of_pos hD0] at hdiff
    exact le_trans (mul_le_mul_of_nonneg_left c2 (abs_nonneg _)) hdiff
  have b4 := abs_le.mp htt
  have hvabs : |v0 + σ' * ((t : ℚ) - t0)| ≤ 4 * M := abs_le.mpr ⟨by linarith, by linarith⟩
  have okl : ∀ a b, Ok (lineAt f64Ops a b t) := fun a b => by unfold lineAt; exact ok_add
  obtain ⟨w, hw1, hw2⟩ := (convert32 (okl _ _) hline (B := 7 * M) (by linarith) (by linarith)).1
  refine ⟨w, hw1, ?_⟩
  have b5 := abs_le.mp hw2
  exact abs_le.mpr ⟨by linarith, by linarith⟩

/-! ### The last value -/

theorem roundEven_near {x : ℚ} {n : Int} (h : |x - n| < 1 / 2) : roundEven x = n := by
  have a := abs_le.mp (roundEven_error x)
  have b := abs_lt.mp h
  have h1 : ((roundEven x : Int) : ℚ) < n + 1 := by linarith
  have h2 : (n : ℚ) < (roundEven x : Int) + 1 := by linarith
  have h1' : roundEven x < n + 1 := by exact_mod_cast h1
  have h2' : n < roundEven x + 1 := by exact_mod_cast h2
  omega

/-- A number close to a binary32 number is rounded to it. -/
theorem roundMag_stable {q x : ℚ} (hq : 0 < q) (hrep : Representable f32Fmt q) (hx : |x - q| < q * (1 / 2 ^ 26)) :
    roundMag f32Fmt x = q := by
  have hx' := abs_lt.mp hx
  have hx0 : 0 < x := by linarith
  obtain ⟨r1, r2⟩ := rep_multiple hq hrep
  obtain ⟨q1, q2⟩ := ilog2_spec hq
  obtain ⟨x1, x2⟩ := ilog2_spec hx0
  -- the exponent of the last place of `q`
  obtain ⟨n, hn, hqn⟩ : ∃ n : Nat, n < 2 ^ 24 ∧ q = n * pow2 (lastPlace f32Fmt q) := by
    unfold lastPlace
    by_cases h : ilog2 q < -126
    · obtain ⟨n, h1, h2⟩ := r1 h
      refine ⟨n, by omega, ?_⟩
      rw [max_eq_right (by simp only [f32Fmt]; omega)]
      exact h2
    · obtain ⟨n, _, h1, h2⟩ := r2 (by omega)
      refine ⟨n, h1, ?_⟩
      rw [max_eq_left (by simp only [f32Fmt]; omega)]
      exact h2
  have hl : lastPlace f32Fmt x ≤ lastPlace f32Fmt q := by
    have hlog : ilog2 x ≤ ilog2 q := by
      by_contra hc
      have h1 : pow2 (ilog2 q + 1) ≤ x := le_trans (pow2_le (by omega)) x1
      -- `q` is at least one unit in the last place below the next power of two
      have he : lastPlace f32Fmt q ≤ ilog2 q + 1 ∨ ilog2 q + 1 < lastPlace f32Fmt q := by omega
      have hgap : q + pow2 (lastPlace f32Fmt q) ≤ pow2 (ilog2 q + 1) := by
        rcases he with he | he
        · have e : pow2 (ilog2 q + 1) = ((2 ^ (ilog2 q + 1 - lastPlace f32Fmt q).toNat : Nat) : ℚ) * pow2 (lastPlace f32Fmt q) := by
            push_cast
            rw [← pow2_natCast, ← pow2_add]; congr 1; omega
          have h3 : (n : ℚ) * pow2 (lastPlace f32Fmt q) <
              ((2 ^ (ilog2 q + 1 - lastPlace f32Fmt q).toNat : Nat) : ℚ) * pow2 (lastPlace f32Fmt q) := by
            rw [← e, ← hqn]; exact q2
          have h4 := lt_of_mul_lt_mul_right h3 (pow2_pos _).le
          have h5 : n + 1 ≤ 2 ^ (ilog2 q + 1 - lastPlace f32Fmt q).toNat := by
            have : n < 2 ^ (ilog2 q + 1 - lastPlace f32Fmt q).toNat := by exact_mod_cast h4
            omega
          have h6 : ((n + 1 : Nat) : ℚ) * pow2 (lastPlace f32Fmt q) ≤
              ((2 ^ (ilog2 q + 1 - lastPlace f32Fmt q).toNat : Nat) : ℚ) * pow2 (lastPlace f32Fmt q) :=
            mul_le_mul_of_nonneg_right (by exact_mod_cast h5) (pow2_pos _).le
          rw [← e] at h6
          push_cast at h6
          have h7 : ((n : ℚ) + 1) * pow2 (lastPlace f32Fmt q) = q + pow2 (lastPlace f32Fmt q) := by rw [add_mul, one_mul, ← hqn]
          rw [h7] at h6
          exact h6
        · exfalso
          have h3 : q < pow2 (lastPlace f32Fmt q) := lt_trans q2 (pow2_lt he)
          have h4 : (n : ℚ) * pow2 (lastPlace f32Fmt q) < 1 * pow2 (lastPlace f32Fmt q) := by rw [← hqn, one_mul]; exact h3
          have h5 : (n : ℚ) < 1 := lt_of_mul_lt_mul_right h4 (pow2_pos _).le
          have h6 : n < 1 := by exact_mod_cast h5
          have h7 : n = 0 := by omega
          rw [h7] at hqn
          simp at hqn
          linarith
      have hle : q ≤ pow2 (lastPlace f32Fmt q) * 2 ^ 24 := by
        calc q = n * pow2 (lastPlace f32Fmt q) := hqn
          _ ≤ 2 ^ 24 * pow2 (lastPlace f32Fmt q) := mul_le_mul_of_nonneg_right (by exact_mod_cast hn.le) (pow2_pos _).le
          _ = _ := by ring
      linarith
    unfold lastPlace
    exact max_le_max (by omega) (le_refl _)
  have hint : q = ((n * 2 ^ (lastPlace f32Fmt q - lastPlace f32Fmt x).toNat : Nat) : ℚ) * pow2 (lastPlace f32Fmt x) := by
    have e : pow2 (lastPlace f32Fmt q) = 2 ^ (lastPlace f32Fmt q - lastPlace f32Fmt x).toNat * pow2 (lastPlace f32Fmt x) := by
      rw [← pow2_natCast, ← pow2_add]; congr 1; omega
    push_cast
    rw [mul_assoc, ← e]
    exact hqn
  have hp := pow2_pos (lastPlace f32Fmt x)
  have hxle : x < pow2 (lastPlace f32Fmt x) * 2 ^ 24 := by
    have e : pow2 (lastPlace f32Fmt x) * 2 ^ 24 = pow2 (lastPlace f32Fmt x + 24) := by
      rw [pow2_add, show pow2 24 = 2 ^ 24 by rw [pow2_eq]; norm_num]
    rw [e]
    refine lt_of_lt_of_le x2 (pow2_le ?_)
    have : ilog2 x - (24 - 1) ≤ lastPlace f32Fmt x := le_max_left _ _
    omega
  rw [roundMag_of_pos hx0]
  generalize hN : n * 2 ^ (lastPlace f32Fmt q - lastPlace f32Fmt x).toNat = N at hint
  have hround : roundEven (x / pow2 (lastPlace f32Fmt x)) = (N : Int) := by
    refine roundEven_near ?_
    have e : x / pow2 (lastPlace f32Fmt x) - ((N : Int) : ℚ) = (x - q) / pow2 (lastPlace f32Fmt x) := by
      rw [sub_div, hint, mul_div_assoc, div_self hp.ne', mul_one]
      push_cast
      rfl
    rw [e, _root_.abs_div, abs_of_pos hp, div_lt_iff₀ hp]
    refine lt_trans hx ?_
    linarith
  rw [hround]
  rw [hint]
  push_cast
  rfl

/-- A datum close to a binary32 datum is converted to it. -/
theorem convert_stable {x y : FVal} {L e : ℚ} (oy : Ok y) (hy : IsF32 y) (hL : Is y L) (ox : Ok x) (hx : Near x L e)
    (he : e < |L| * (1 / 2 ^ 26)) : FVal.convert f32Fmt x = y := by
  obtain ⟨r, ⟨s, m, rfl, rfl⟩, hr⟩ := hx
  obtain ⟨t, q, rfl, rfl⟩ := hL
  have hm : 0 ≤ m := ox
  have hq : 0 ≤ q := oy
  rw [ratOf_abs hq] at he
  have hlt : |ratOf s m - ratOf t q| < q * (1 / 2 ^ 26) := lt_of_le_of_lt hr he
  have hq0 : 0 < q := by
    by_contra hc
    have : q = 0 := le_antisymm (not_lt.mp hc) hq
    rw [this, zero_mul] at hlt
    exact absurd hlt (not_lt.mpr (abs_nonneg _))
  have hst : s = t := by
    have a := abs_lt.mp hlt
    cases s <;> cases t
    · rfl
    · simp only [ratOf, if_true, Bool.false_eq_true, if_false] at a
      exfalso; linarith
    · simp only [ratOf, if_true, Bool.false_eq_true, if_false] at a
      exfalso; linarith
    · rfl
  subst hst
  rw [ratOf_sub] at hlt
  have h := roundMag_stable hq0 (Mag32.rep hy) hlt
  simp only [FVal.convert]
  rw [round_of_lt (by rw [h]; exact Mag32.lt hy), h]

/-- The value read at the last timestamp is the last value that was stored, if it is not too small for the rounding. -/
theorem last64 {s : Swing} {x0 : FVal} {t0 tl : Int} {v0 vl σ δl E M G T : ℚ} (hs : s.firstValue = x0) (hstart : s.startTime = t0)
    (hstop : s.endTime = tl) (hok : OkSwing s) (h32 : FVal.convert f32Fmt x0 = x0) (hx : Is x0 v0) (hσ : Is (s.slope f64Ops) σ)
    (hσG : |σ| ≤ G) (hl1 : v0 + σ * (tl - t0) ≤ vl + δl + E) (hl2 : vl - δl - E ≤ v0 + σ * (tl - t0))
    (hEM : E ≤ M) (h0 : |v0| ≤ M) (hvl : |vl| ≤ M) (hδl : δl ≤ M) (hM : pow2 (-126) ≤ M) (ht0 : |(t0 : ℚ)| ≤ T)
    (htl : |(tl : ℚ)| ≤ T) (hT : T ≤ 2 ^ 64) (hbig : G * T + M ≤ 2 ^ 100) (hlt : t0 < tl) (hspan : tl - t0 < 2 ^ 63)
    (hstable : (G * T + M * T / (tl - t0) * (1 / 2 ^ 20) + M) * (1 / 2 ^ 49) + 2 * M * (1 / 2 ^ 48) <
      (|vl| - δl - E - M * (6 / 2 ^ 24)) * (1 / 2 ^ 26)) :
    f64Ops.toValue (lineAt f64Ops
      (computeSlopeAndIntercept f64Ops t0 (s.model f64Ops).1 tl (s.model f64Ops).2).1
      (computeSlopeAndIntercept f64Ops t0 (s.model f64Ops).1 tl (s.model f64Ops).2).2 tl) = (s.model f64Ops).2 := by
  obtain ⟨L, σ', _, _, hL, okL, hLe, hg4, _, hlines⟩ := core64 hs hstart hstop hok h32 hx hσ hσG hl1 hl2 hEM h0 hvl hδl hM ht0 hT hbig hlt hspan
  obtain ⟨r, hr, hre⟩ := hlines tl htl
  have hF : IsF32 (s.model f64Ops).2 := by
    unfold Swing.model
    exact isF32_convert _ fun sg q h => by
      have : Ok (FVal.add f64Fmt (f64Ops.mul (s.slope f64Ops) (f64Ops.ofInt (wrapI64 (s.endTime - s.startTime)))) s.firstValue) := ok_add
      have h' : FVal.add f64Fmt (f64Ops.mul (s.slope f64Ops) (f64Ops.ofInt (wrapI64 (s.endTime - s.startTime)))) s.firstValue = .fin sg q := h
      rw [h'] at this
      exact this
  refine convert_stable okL hF hL (by unfold lineAt; exact ok_add) (e := (G * T + M * T / (tl - t0) * (1 / 2 ^ 20) + M) * (1 / 2 ^ 49) +
    2 * M * (1 / 2 ^ 48)) ⟨r, hr, ?_⟩ (lt_of_lt_of_le hstable ?_)
  · have a := abs_le.mp hre
    have b := abs_le.mp hg4
    exact abs_le.mpr ⟨by linarith, by linarith⟩
  · refine mul_le_mul_of_nonneg_right ?_ (by norm_num)
    have a := abs_le.mp hLe
    have b := abs_le.mp (le_refl |L|)
    have c : |vl| ≤ |L| + δl + E + M * (6 / 2 ^ 24) := abs_le.mpr ⟨by linarith, by linarith⟩
    linarith

/-- If a slope fits the last point and a point of binary32 values up to a rounding that is too small for them, the last value of the model and
the value read are these values. -/
theorem exact64 {s : Swing} {x0 yl y : FVal} {t0 tl t : Int} {v0 vl v σ E M G T : ℚ} (hs : s.firstValue = x0) (hstart : s.startTime = t0)
    (hstop : s.endTime = tl) (hok : OkSwing s) (h32 : FVal.convert f32Fmt x0 = x0) (hx : Is x0 v0) (hσ : Is (s.slope f64Ops) σ)
    (hσG : |σ| ≤ G) (hl1 : v0 + σ * (tl - t0) ≤ vl + E) (hl2 : vl - E ≤ v0 + σ * (tl - t0))
    (hEM : E ≤ M) (h0 : |v0| ≤ M) (hvl : |vl| ≤ M) (hM : pow2 (-126) ≤ M) (ht0 : |(t0 : ℚ)| ≤ T)
    (ht : |(t : ℚ)| ≤ T) (hT : T ≤ 2 ^ 64) (hbig : G * T + M ≤ 2 ^ 100) (hlt : t0 < tl) (hspan : tl - t0 < 2 ^ 63)
    (hbefore : t0 ≤ t) (hafter : t ≤ tl)
    (okl : Ok yl) (fl : IsF32 yl) (il : Is yl vl) (okv : Ok y) (fv : IsF32 y) (iv : Is y v)
    (hv1 : v0 + σ * (t - t0) ≤ v + E) (hv2 : v - E ≤ v0 + σ * (t - t0))
    (hsl : E + M * (32 / 2 ^ 53) < |vl| * (1 / 2 ^ 26))
    (hsv : 2 * E + 2 * M * (1 / 2 ^ 48) + (G * T + M * T / (tl - t0) * (1 / 2 ^ 20) + M) * (1 / 2 ^ 49) < |v| * (1 / 2 ^ 26)) :
    (s.model f64Ops).2 = yl ∧ f64Ops.toValue (lineAt f64Ops
      (computeSlopeAndIntercept f64Ops t0 (s.model f64Ops).1 tl (s.model f64Ops).2).1
      (computeSlopeAndIntercept f64Ops t0 (s.model f64Ops).1 tl (s.model f64Ops).2).2 t) = y := by
  have hM0 : 0 ≤ M := le_trans (abs_nonneg _) h0
  obtain ⟨L, σ', X, ⟨_, hX, okX, nX⟩, hL, okL, hLe, hg4, _, hlines⟩ := core64 (δl := 0) hs hstart hstop hok h32 hx hσ hσG (by linarith)
    (by linarith) hEM h0 hvl hM0 hM ht0 hT hbig hlt hspan
  have hmodel : (s.model f64Ops).2 = yl := by
    rw [hX]
    obtain ⟨r, hr, hre⟩ := nX
    have a := abs_le.mp hre
    exact convert_stable okl fl il okX (e := E + M * (32 / 2 ^ 53)) ⟨r, hr, abs_le.mpr ⟨by linarith, by linarith⟩⟩ hsl
  refine ⟨hmodel, ?_⟩
  have hLv : L = vl := by
    rw [hmodel] at hL
    obtain ⟨s1, q1, e1, rfl⟩ := hL
    obtain ⟨s2, q2, e2, rfl⟩ := il
    rw [e1] at e2
    cases e2
    rfl
  have hD0 : (0 : ℚ) < (tl : ℚ) - t0 := by
    have : (t0 : ℚ) < tl := by exact_mod_cast hlt
    linarith
  have hdiff : |(σ' - σ) * ((tl : ℚ) - t0)| ≤ E + 2 * M * (1 / 2 ^ 48) := by
    rw [hLv] at hg4
    have a := abs_le.mp hg4
    exact abs_le.mpr ⟨by linarith, by linarith⟩
  have htt : |(σ' - σ) * ((t : ℚ) - t0)| ≤ E + 2 * M * (1 / 2 ^ 48) := by
    have c1 : (0 : ℚ) ≤ (t : ℚ) - t0 := by
      have : (t0 : ℚ) ≤ t := by exact_mod_cast hbefore
      linarith
    have c2 : (t : ℚ) - t0 ≤ (tl : ℚ) - t0 := by
      have : (t : ℚ) ≤ tl := by exact_mod_cast hafter
      linarith
    rw [abs_mul, abs_of_nonneg c1]
    rw [abs_mul, abs_of_pos hD0] at hdiff
    exact le_trans (mul_le_mul_of_nonneg_left c2 (abs_nonneg _)) hdiff
  obtain ⟨r, hr, hre⟩ := hlines t ht
  have a := abs_le.mp hre
  have b := abs_le.mp htt
  exact convert_stable okv fv iv (by unfold lineAt; exact ok_add) (e := 2 * E + 2 * M * (1 / 2 ^ 48) +
    (G * T + M * T / (tl - t0) * (1 / 2 ^ 20) + M) * (1 / 2 ^ 49)) ⟨r, hr, abs_le.mpr ⟨by linarith, by linarith⟩⟩ hsv

end ModelarDB.Lemmas
