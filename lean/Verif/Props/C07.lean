import Verif.Lemmas.SwingRounding
import Mathlib.Tactic.FinCases
/-
C07: linear models respect the error bound.

A run of points is given by timestamps and bit patterns of values. `swingFit ops eb points` offers
them in order to the linear model and is `some s` if all are accepted. The model stores
`s.model ops`, from which `swingGrid ops` computes the values that are read.
-/
namespace ModelarDB.Props
open Model Spec Lemmas

/-- The linear model after all points have been accepted. -/
def swingFit (ops : FloatOps) (eb : ErrorBound) (points : List (Int × Nat)) : Option Swing :=
  acceptAll (fun s p => s.fitDataPoint ops p.1 p.2) (Swing.new eb) (points.map fun p => (p.1, FVal.ofBits32 p.2))

/-- The values read from the linear model at the timestamps of the points. -/
def swingRead (ops : FloatOps) (s : Swing) (points : List (Int × Nat)) : List FVal :=
  swingGrid ops ((points.map Prod.fst).headD 0) ((points.map Prod.fst).getLastD 0) (s.model ops).1 (s.model ops).2
    (points.map Prod.fst)

theorem two_points {α : Type} {l : List α} (h : 2 ≤ l.length) : ∃ p rest, l = p :: rest ∧ rest ≠ [] := by
  match l, h with
  | p :: q :: rest, _ => exact ⟨p, q :: rest, rfl, by simp⟩

/-- **C07** if all computations are carried out without rounding: every value read is within the error
bound of the value ingested. The code computes in binary64 and stores binary32, for which the
statement is false, see `C07_linear_model_out_of_bound`. -/
theorem C07_linear_model_within_bound_exact_partial (eb : ErrorBound) (hvalid : ValidErrorBound eb)
    (points : List (Int × Nat)) (hlen : 2 ≤ points.length) (hinc : StrictlyIncreasing (points.map Prod.fst))
    (hrange : ∀ p ∈ points, IsI64 p.1) (hspan : ∀ p ∈ points, ∀ q ∈ points, q.1 - p.1 < 2 ^ 63)
    (s : Swing) (h : swingFit exactOps eb points = some s) :
    List.Forall₂ (fun p w => WithinExact eb (FVal.ofBits32 p.2) w) points (swingRead exactOps s points) := by
  obtain ⟨⟨t0, b0⟩, rest, rfl, hne⟩ := two_points hlen
  obtain ⟨x0, hx0⟩ : ∃ x0, x0 = FVal.ofBits32 b0 := ⟨_, rfl⟩
  unfold swingRead
  simp only [List.map_cons, List.headD_cons]
  have hts : rest.map Prod.fst ≠ [] := by simpa using hne
  have hlast : (t0 :: rest.map Prod.fst).getLastD 0 = (rest.map Prod.fst).getLastD t0 := by
    rw [List.getLastD_cons]
  rw [hlast]
  have hafter : ∀ p ∈ rest, t0 < p.1 := by
    intro p hp
    rw [StrictlyIncreasing, List.map_cons, List.pairwise_cons] at hinc
    exact hinc.1 _ (List.mem_map_of_mem hp)
  have hlastmem : (rest.map Prod.fst).getLastD t0 ∈ rest.map Prod.fst := getLastD_mem hts
  obtain ⟨pl, hpl, hple⟩ := List.mem_map.mp hlastmem
  have hT0 := hafter pl hpl
  have hT1 := hspan (t0, b0) (by simp) pl (by simp [hpl])
  rw [hple] at hT0 hT1
  have hfit : acceptAll (swingStep exactOps) (Swing.new eb)
      ((t0, x0) :: rest.map fun p => (p.1, FVal.ofBits32 p.2)) = some s := by
    rw [hx0]; exact h
  cases hf : x0.isFinite with
  | false =>
    -- all values are the same and not finite
    have hinv := nonFinite_acceptAll hf _ hfit
    have hstop : s.endTime = (rest.map Prod.fst).getLastD t0 := by
      rw [hinv.stop, List.map_map]; rfl
    have hgrid := nonFinite_grid nonFinite_exact hf (by simpa using hne) hinv (by rw [hstop]; exact hT0)
      (by rw [hstop]; exact hT1) (t0 :: rest.map Prod.fst) (by
        intro t ht
        rcases List.mem_cons.mp ht with rfl | ht
        · exact hrange (t, b0) (by simp)
        · obtain ⟨p, hp, rfl⟩ := List.mem_map.mp ht
          exact hrange p (by simp [hp]))
    rw [hinv.start, hstop] at hgrid
    have hself : WithinExact eb x0 x0 := by
      rcases valid_cases hvalid with rfl | ⟨b, _, _, rfl⟩ | ⟨p, _, _, _, rfl⟩ <;> cases x0 <;>
        simp_all [FVal.isFinite, WithinExact]
    rw [List.forall₂_iff_get]
    refine ⟨by simp [swingGrid], ?_⟩
    intro i h1 h2
    rw [hgrid _ (List.get_mem _ _)]
    rcases List.mem_cons.mp (List.get_mem ((t0, b0) :: rest) ⟨i, h1⟩) with he | hm
    · rw [he, ← hx0]; exact hself
    · have := hinv.values (((t0, b0) :: rest)[i].1, FVal.ofBits32 ((t0, b0) :: rest)[i].2)
        (List.mem_map.mpr ⟨_, hm, rfl⟩)
      dsimp only at this
      simp only [List.get_eq_getElem]
      rw [this]; exact hself
  | true =>
    obtain ⟨s0, q0, hq0⟩ : ∃ s0 q0, x0 = .fin s0 q0 := by
      cases x0 with
      | fin s0 q0 => exact ⟨s0, q0, rfl⟩
      | nan => cases hf
      | inf _ => cases hf
    obtain ⟨_, hfin⟩ := finite_acceptAll hf _ hfit
    have his : Is x0 (ratOf s0 q0) := by rw [hq0]; exact is_fin _ _
    -- the points with their deviations
    have hpts : ∀ p ∈ rest, ∃ s q δ, FVal.ofBits32 p.2 = .fin s q ∧ Mag32 q ∧
        maximumAllowedDeviation eb (.fin s q) = .fin false δ ∧ 0 ≤ δ ∧ δ ≤ deviationBound eb q := by
      intro p hp
      have hpf := hfin (p.1, FVal.ofBits32 p.2) (List.mem_map.mpr ⟨p, hp, rfl⟩)
      dsimp only at hpf
      cases hv : FVal.ofBits32 p.2 with
      | nan => rw [hv] at hpf; cases hpf
      | inf _ => rw [hv] at hpf; cases hpf
      | fin s q =>
        obtain ⟨δ, d1, d2, d3⟩ := deviation_is hvalid s (mag32_ofBits _ hv)
        exact ⟨s, q, δ, rfl, mag32_ofBits _ hv, d1, d2, d3⟩
    let toPt : Int × Nat → Pt := fun p => ⟨p.1, FVal.ofBits32 p.2, maximumAllowedDeviation eb (FVal.ofBits32 p.2),
      ((FVal.ofBits32 p.2).toRat?).getD 0, ((maximumAllowedDeviation eb (FVal.ofBits32 p.2)).toRat?).getD 0⟩
    have hadm : ∀ p ∈ rest, ExactAdm eb t0 (toPt p) := by
      intro p hp
      obtain ⟨s, q, δ, e1, e2, e3, e4, e5⟩ := hpts p hp
      refine ⟨hafter p hp, hspan (t0, b0) (by simp) p (by simp [hp]), ?_, rfl, ?_, ?_⟩
      · simp only [toPt, e1]; exact ⟨s, q, rfl, rfl⟩
      · simp only [toPt, e1, e3]; exact ⟨false, δ, rfl, rfl⟩
      · simp only [toPt, e1, e3]; exact e4
    have hadm' : ∀ p ∈ rest.map toPt, ExactAdm eb t0 p := by
      intro p hp; obtain ⟨q, hq, rfl⟩ := List.mem_map.mp hp; exact hadm q hq
    have hmap : (rest.map toPt).map Pt.t = rest.map Prod.fst := by rw [List.map_map]; rfl
    have hsorted : ((rest.map toPt).map Pt.t).Pairwise (· < ·) := by
      rw [hmap]
      rw [StrictlyIncreasing, List.map_cons, List.pairwise_cons] at hinc
      exact hinc.2
    obtain ⟨hinv, hstop⟩ := swing_acceptAll (exact_acc his) (rest.map toPt) hadm' hsorted (s := s) (by
      rw [List.map_map]; exact hfit)
    rw [hmap] at hstop
    obtain ⟨σ, hσ, -, hall⟩ := swing_slope (exact_acc his) hadm' hinv (by simpa using hne) (fun _ _ _ _ _ _ _ => trivial)
    have hw : wrapI64 ((rest.map Prod.fst).getLastD t0 - t0) = (rest.map Prod.fst).getLastD t0 - t0 :=
      wrapI64_of_range (by unfold IsI64; omega)
    have hfirst : Is (s.model exactOps).1 (ratOf s0 q0) := by
      unfold Swing.model; simp only [hinv.first]; exact his
    have hlastv : Is (s.model exactOps).2 (ratOf s0 q0 + σ * ((rest.map Prod.fst).getLastD t0 - t0)) := by
      unfold Swing.model
      simp only [hinv.first, hinv.start, hstop, hw]
      have := exact_add (exact_mul hσ (exact_ofInt ((rest.map Prod.fst).getLastD t0 - t0))) his
      rw [add_comm] at this
      push_cast at this
      exact this
    obtain ⟨σ', g1, g2, g3⟩ := exact_line hfirst hlastv hT0 hT1
    have hσσ : σ' = σ := by
      have hpos : (0 : ℚ) < ((rest.map Prod.fst).getLastD t0 : ℚ) - t0 := by
        have : (t0 : ℚ) < ((rest.map Prod.fst).getLastD t0 : ℤ) := by exact_mod_cast hT0
        linarith
      have := add_left_cancel g3
      exact mul_right_cancel₀ hpos.ne' this
    subst hσσ
    have hval : ∀ t : Int, Is (exactOps.toValue (lineAt exactOps
        (computeSlopeAndIntercept exactOps t0 (s.model exactOps).1 ((rest.map Prod.fst).getLastD t0) (s.model exactOps).2).1
        (computeSlopeAndIntercept exactOps t0 (s.model exactOps).1 ((rest.map Prod.fst).getLastD t0) (s.model exactOps).2).2 t))
        (ratOf s0 q0 + σ' * (t - t0)) := fun t => exact_lineAt g1 g2 t
    unfold swingGrid
    dsimp only
    rw [List.map_cons]
    refine List.Forall₂.cons ?_ ?_
    · have h0 := hval t0
      rw [sub_self, mul_zero, add_zero] at h0
      rw [← hx0, hq0]
      have hm : Mag32 q0 := mag32_ofBits b0 (by rw [← hx0, hq0])
      refine withinExact_of_deviation hvalid hm.nonneg h0 ?_
      rw [sub_self, abs_zero]
      obtain ⟨δ, _, d2, d3⟩ := deviation_is hvalid s0 hm
      linarith
    · rw [List.map_map, List.forall₂_map_right_iff, List.forall₂_same]
      intro p hp
      obtain ⟨s1, q, δ, e1, e2, e3, e4, e5⟩ := hpts p hp
      rw [e1]
      refine withinExact_of_deviation hvalid e2.nonneg (hval p.1) ?_
      have hok := hall (toPt p) (List.mem_map_of_mem hp)
      have hv : (toPt p).v = ratOf s1 q := by simp only [toPt, e1]; rfl
      have hd : (toPt p).δ = δ := by simp only [toPt, e1, e3]; rfl
      unfold SlopeOK at hok
      rw [hv, hd, mul_zero] at hok
      have ht : (toPt p).t = p.1 := rfl
      rw [ht] at hok
      rw [abs_le]
      constructor <;> linarith [hok.1, hok.2]

/-- `0, 1, 2.5` at `0, 1, 2` is accepted with the absolute error bound `1`. -/
example : ∃ s, swingFit exactOps (.absolute (FVal.ofBits32 0x3f800000)) [(0, 0), (1, 0x3f800000), (2, 0x40200000)] = some s ∧
    s.length = 3 := by
  refine ⟨(swingFit exactOps (.absolute (FVal.ofBits32 0x3f800000)) [(0, 0), (1, 0x3f800000), (2, 0x40200000)]).get
    (by decide +kernel), (Option.some_get _).symm, ?_⟩
  decide +kernel

/-- **C07** as the code computes, for values that are not finite: they are read back unchanged. -/
theorem C07_linear_model_not_finite (eb : ErrorBound) (points : List (Int × Nat)) (hlen : 2 ≤ points.length)
    (hinc : StrictlyIncreasing (points.map Prod.fst)) (hrange : ∀ p ∈ points, IsI64 p.1)
    (hspan : ∀ p ∈ points, ∀ q ∈ points, q.1 - p.1 < 2 ^ 63)
    (hnf : ∃ p ∈ points, (FVal.ofBits32 p.2).isFinite = false)
    (s : Swing) (h : swingFit f64Ops eb points = some s) :
    List.Forall₂ (fun p w => w = FVal.ofBits32 p.2) points (swingRead f64Ops s points) := by
  obtain ⟨⟨t0, b0⟩, rest, rfl, hne⟩ := two_points hlen
  unfold swingRead
  simp only [List.map_cons, List.headD_cons]
  have hts : rest.map Prod.fst ≠ [] := by simpa using hne
  rw [List.getLastD_cons]
  have hafter : ∀ p ∈ rest, t0 < p.1 := by
    intro p hp
    rw [StrictlyIncreasing, List.map_cons, List.pairwise_cons] at hinc
    exact hinc.1 _ (List.mem_map_of_mem hp)
  have hlastmem : (rest.map Prod.fst).getLastD t0 ∈ rest.map Prod.fst := getLastD_mem hts
  obtain ⟨pl, hpl, hple⟩ := List.mem_map.mp hlastmem
  have hT0 := hafter pl hpl
  have hT1 := hspan (t0, b0) (by simp) pl (by simp [hpl])
  rw [hple] at hT0 hT1
  have hfit : acceptAll (swingStep f64Ops) (Swing.new eb)
      ((t0, FVal.ofBits32 b0) :: rest.map fun p => (p.1, FVal.ofBits32 p.2)) = some s := h
  have hf : (FVal.ofBits32 b0).isFinite = false := by
    by_contra hc
    obtain ⟨_, hfin⟩ := finite_acceptAll (by simpa using hc) _ hfit
    obtain ⟨p, hp, hpn⟩ := hnf
    rcases List.mem_cons.mp hp with rfl | hp
    · exact hc hpn
    · have := hfin (p.1, FVal.ofBits32 p.2) (List.mem_map.mpr ⟨p, hp, rfl⟩)
      dsimp only at this
      rw [hpn] at this; cases this
  have hinv := nonFinite_acceptAll hf _ hfit
  have hstop : s.endTime = (rest.map Prod.fst).getLastD t0 := by
    rw [hinv.stop, List.map_map]; rfl
  have hgrid := nonFinite_grid nonFinite_f64 hf (by simpa using hne) hinv (by rw [hstop]; exact hT0)
    (by rw [hstop]; exact hT1) (t0 :: rest.map Prod.fst) (by
      intro t ht
      rcases List.mem_cons.mp ht with rfl | ht
      · exact hrange (t, b0) (by simp)
      · obtain ⟨p, hp, rfl⟩ := List.mem_map.mp ht
        exact hrange p (by simp [hp]))
  rw [hinv.start, hstop] at hgrid
  rw [List.forall₂_iff_get]
  refine ⟨by simp [swingGrid], ?_⟩
  intro i h1 h2
  rw [hgrid _ (List.get_mem _ _)]
  rcases List.mem_cons.mp (List.get_mem ((t0, b0) :: rest) ⟨i, h1⟩) with he | hm
  · rw [he]
  · have := hinv.values (((t0, b0) :: rest)[i].1, FVal.ofBits32 ((t0, b0) :: rest)[i].2)
      (List.mem_map.mpr ⟨_, hm, rfl⟩)
    dsimp only at this
    simp only [List.get_eq_getElem]
    rw [this]

/-- Infinity at three timestamps is accepted. -/
example : (swingFit f64Ops .lossless [(0, 0x7f800000), (5, 0x7f800000), (6, 0x7f800000)]).isSome = true := by
  decide +kernel

theorem deviationBound_eq {eb : ErrorBound} (hvalid : ValidErrorBound eb) {s : Bool} {q : ℚ} (hq : 0 ≤ q) :
    deviationBound eb q = (1 - margin eb) * allowed eb (ratOf s q) ∧ 0 ≤ allowed eb (ratOf s q) ∧ 0 ≤ margin eb ∧ margin eb ≤ 1 := by
  rcases valid_cases hvalid with rfl | ⟨b, hb, hb0, rfl⟩ | ⟨p, hp, hp0, hp100, rfl⟩
  · simp [deviationBound, allowed, margin]
  · simp only [deviationBound, allowed, margin]
    exact ⟨by ring, hb0.le, by norm_num, by norm_num⟩
  · simp only [deviationBound, allowed, margin]
    rw [ratOf_abs hq]
    exact ⟨by ring, mul_nonneg (by linarith) hq, by norm_num, by norm_num⟩

/-- The slope of a linear model of finite values fits all points up to the rounding. -/
theorem linear_slope64 (eb : ErrorBound) (hvalid : ValidErrorBound eb) (t0 : Int) (b0 : Nat) (others : List (Int × Nat))
    (hne : others ≠ []) (hinc : StrictlyIncreasing (t0 :: others.map Prod.fst))
    (hspan : ∀ p ∈ others, p.1 - t0 < 2 ^ 63) (hfinite : (FVal.ofBits32 b0).isFinite = true) {M G T : ℚ}
    (hscale : LinearScale eb t0 (realValue b0) (others.map fun p => (p.1, realValue p.2)) M G T)
    (s : Swing) (h : swingFit f64Ops eb ((t0, b0) :: others) = some s) :
    ∃ σ, s.firstValue = FVal.ofBits32 b0 ∧ s.startTime = t0 ∧ s.endTime = (others.map Prod.fst).getLastD t0 ∧ OkSwing s ∧
      FVal.convert f32Fmt (FVal.ofBits32 b0) = FVal.ofBits32 b0 ∧ Is (FVal.ofBits32 b0) (realValue b0) ∧ Is (s.slope f64Ops) σ ∧ |σ| ≤ G ∧
      0 ≤ (1 - margin eb) * allowed eb (realValue b0) ∧
      ∀ p ∈ others, ∃ δ, 0 ≤ δ ∧ δ ≤ (1 - margin eb) * allowed eb (realValue p.2) ∧ δ ≤ allowed eb (realValue p.2) ∧
        realValue b0 + σ * (p.1 - t0) ≤ realValue p.2 + δ + others.length * (G * T + M) * (1 / 2 ^ 47) ∧
        realValue p.2 - δ - others.length * (G * T + M) * (1 / 2 ^ 47) ≤ realValue b0 + σ * (p.1 - t0) := by
  obtain ⟨x0, hx0⟩ : ∃ x0, x0 = FVal.ofBits32 b0 := ⟨_, rfl⟩
  have hts : others.map Prod.fst ≠ [] := by simpa using hne
  have hafter : ∀ p ∈ others, t0 < p.1 := by
    intro p hp
    rw [StrictlyIncreasing, List.pairwise_cons] at hinc
    exact hinc.1 _ (List.mem_map_of_mem hp)
  have hlastmem : (others.map Prod.fst).getLastD t0 ∈ others.map Prod.fst := getLastD_mem hts
  obtain ⟨pl, hpl, hple⟩ := List.mem_map.mp hlastmem
  have hT0 := hafter pl hpl
  have hT1 := hspan pl hpl
  rw [hple] at hT0 hT1
  have hfit : acceptAll (swingStep f64Ops) (Swing.new eb)
      ((t0, x0) :: others.map fun p => (p.1, FVal.ofBits32 p.2)) = some s := by
    rw [hx0]; exact h
  rw [← hx0] at hfinite
  obtain ⟨s0, q0, hq0⟩ : ∃ s0 q0, x0 = .fin s0 q0 := by
    cases x0 with
    | fin s0 q0 => exact ⟨s0, q0, rfl⟩
    | nan => cases hfinite
    | inf _ => cases hfinite
  obtain ⟨_, hfin⟩ := finite_acceptAll hfinite _ hfit
  have his : Is x0 (realValue b0) := by
    unfold realValue
    rw [← hx0, hq0]
    exact is_fin _ _
  have hpts : ∀ p ∈ others, ∃ s q δ, FVal.ofBits32 p.2 = .fin s q ∧ Mag32 q ∧ realValue p.2 = ratOf s q ∧
      maximumAllowedDeviation eb (.fin s q) = .fin false δ ∧ 0 ≤ δ ∧ δ ≤ (1 - margin eb) * allowed eb (realValue p.2) ∧
      δ ≤ allowed eb (realValue p.2) := by
    intro p hp
    have hpf := hfin (p.1, FVal.ofBits32 p.2) (List.mem_map.mpr ⟨p, hp, rfl⟩)
    dsimp only at hpf
    cases hv : FVal.ofBits32 p.2 with
    | nan => rw [hv] at hpf; cases hpf
    | inf _ => rw [hv] at hpf; cases hpf
    | fin s q =>
      have hm := mag32_ofBits _ hv
      obtain ⟨δ, d1, d2, d3⟩ := deviation_is hvalid s hm
      obtain ⟨e1, e2, e3, e4⟩ := deviationBound_eq hvalid (s := s) hm.nonneg
      have hr : realValue p.2 = ratOf s q := by unfold realValue; rw [hv]; rfl
      rw [e1] at d3
      refine ⟨s, q, δ, rfl, hm, hr, d1, d2, by rw [hr]; exact d3, ?_⟩
      rw [hr]
      refine le_trans d3 ?_
      have := mul_le_mul_of_nonneg_right (by linarith : 1 - margin eb ≤ 1) e2
      linarith
  obtain ⟨toPt, htoPt⟩ : ∃ f : Int × Nat → Pt, f = fun p => ⟨p.1, FVal.ofBits32 p.2, maximumAllowedDeviation eb (FVal.ofBits32 p.2),
    realValue p.2, ((maximumAllowedDeviation eb (FVal.ofBits32 p.2)).toRat?).getD 0⟩ := ⟨_, rfl⟩
  have pt_t : ∀ p, (toPt p).t = p.1 := fun p => by rw [htoPt]
  have pt_x : ∀ p, (toPt p).x = FVal.ofBits32 p.2 := fun p => by rw [htoPt]
  have pt_d : ∀ p, (toPt p).d = maximumAllowedDeviation eb (FVal.ofBits32 p.2) := fun p => by rw [htoPt]
  have pt_v : ∀ p, (toPt p).v = realValue p.2 := fun p => by rw [htoPt]
  have pt_δ : ∀ p, (toPt p).δ = ((maximumAllowedDeviation eb (FVal.ofBits32 p.2)).toRat?).getD 0 := fun p => by rw [htoPt]
  have hM : pow2 (-126) ≤ M := by
    refine le_trans (le_of_eq ?_) hscale.normal
    rw [pow2_eq]; norm_num
  have hadm : ∀ p ∈ others, RoundAdm eb t0 (realValue b0) M G T (toPt p) := by
    intro p hp
    obtain ⟨s, q, δ, e1, e2, e3, e4, e5, e6, e7⟩ := hpts p hp
    have hmem : (p.1, realValue p.2) ∈ others.map fun p => (p.1, realValue p.2) := List.mem_map.mpr ⟨p, hp, rfl⟩
    have hdev : (toPt p).δ = δ := by rw [pt_δ, e1, e4]; rfl
    have h1 := hscale.deviation _ hmem
    have h2 := hscale.slope _ hmem
    have h3 := hscale.time _ hmem
    have h4 := hscale.value _ hmem
    dsimp only at h1 h2 h3 h4
    have g1 : Is (toPt p).x (toPt p).v := by rw [pt_x, pt_v, e3, e1]; exact is_fin _ _
    have g2 : Is (toPt p).d (toPt p).δ := by rw [pt_d, hdev, e1, e4]; exact ⟨false, δ, rfl, rfl⟩
    refine ⟨?_, ?_, g1, ?_, ?_, g2, ?_, ?_, ?_, ?_, ?_⟩
    · rw [pt_t]; exact hafter p hp
    · rw [pt_t]; exact hspan p hp
    · rw [pt_x]; exact ok_ofBits _
    · rw [pt_d, pt_x]
    · rw [hdev]; exact e5
    · rw [pt_t]; exact h3
    · rw [pt_v]; exact h4
    · rw [hdev]; linarith
    · rw [hdev, pt_v, pt_t]; linarith
  have hadm' : ∀ p ∈ others.map toPt, RoundAdm eb t0 (realValue b0) M G T p := by
    intro p hp; obtain ⟨q, hq, rfl⟩ := List.mem_map.mp hp; exact hadm q hq
  have hmap : (others.map toPt).map Pt.t = others.map Prod.fst := by
    rw [List.map_map]; exact List.map_congr_left fun p _ => pt_t p
  have hsorted : ((others.map toPt).map Pt.t).Pairwise (· < ·) := by
    rw [hmap]
    rw [StrictlyIncreasing, List.pairwise_cons] at hinc
    exact hinc.2
  have hokx : Ok x0 := by rw [hx0]; exact ok_ofBits b0
  have hlim : G * T + M ≤ 2 ^ 150 := le_trans hscale.limit.2 (by norm_num)
  have hacc := round_acc (eb := eb) his hokx hscale.first.1 hM hscale.first.2 hscale.limit.1 hscale.nonneg hlim
  obtain ⟨hinv, hstop⟩ := swing_acceptAll hacc (others.map toPt) hadm' hsorted (s := s) (by
    rw [List.map_map, show (fun p : Pt => (p.t, p.x)) ∘ toPt = fun p => (p.1, FVal.ofBits32 p.2) from
      funext fun p => by simp only [Function.comp]; rw [pt_t, pt_x]]
    exact hfit)
  rw [hmap] at hstop
  obtain ⟨σ, hσ, hσG, hall⟩ := swing_slope hacc hadm' hinv (by simpa using hne) (by
    intro a b c ha hb h1 h2
    have a1 := abs_le.mp ha
    have b1 := abs_le.mp hb
    exact abs_le.mpr ⟨by linarith, by linarith⟩)
  rw [List.length_map] at hall
  have hok : OkSwing s := okSwing_acceptAll _ (by
    intro p hp
    rcases List.mem_cons.mp hp with rfl | hp
    · exact hokx
    · obtain ⟨q, _, rfl⟩ := List.mem_map.mp hp
      exact ok_ofBits _) (s := Swing.new eb) ⟨trivial, trivial, trivial, le_refl (0 : ℚ), le_refl (0 : ℚ)⟩ hfit
  have h32 : FVal.convert f32Fmt x0 = x0 := by
    rw [hq0]
    exact round_mag32 (mag32_ofBits b0 (by rw [← hx0, hq0]))
  have hE : 2 * (others.length : ℚ) * ((G * T + M) * (1 / 2 ^ 48)) = others.length * (G * T + M) * (1 / 2 ^ 47) := by ring
  rw [hE] at hall
  refine ⟨σ, by rw [← hx0]; exact hinv.first, hinv.start, hstop, hok, by rw [← hx0]; exact h32, by rw [← hx0]; exact his, hσ, hσG, ?_, ?_⟩
  · have hm := mag32_ofBits b0 (by rw [← hx0, hq0])
    obtain ⟨e1, e2, e3, e4⟩ := deviationBound_eq hvalid (s := s0) hm.nonneg
    have hr : realValue b0 = ratOf s0 q0 := by unfold realValue; rw [← hx0, hq0]; rfl
    rw [hr]
    exact mul_nonneg (by linarith) e2
  · intro p hp
    obtain ⟨s1, q, δ, e1, e2, e3, e4, e5, e6, e7⟩ := hpts p hp
    have hokp := hall (toPt p) (List.mem_map_of_mem hp)
    have hδ : (toPt p).δ = δ := by rw [pt_δ, e1, e4]; rfl
    unfold SlopeOK at hokp
    rw [hδ, pt_t, pt_v] at hokp
    exact ⟨δ, e5, e6, e7, hokp.1, hokp.2⟩

/-- C07 as the code computes, for finite values: every value read deviates from the value ingested by at most the part of the error bound that
the model uses (99.1 percent of an absolute and 99.95 percent of a relative bound) and `linearSlack`, which is what rounding adds. What
is missing is that rounding never exceeds the rest of the error bound, which is false, see `C07_linear_model_out_of_bound`. -/
theorem C07_linear_model_rounding_partial (eb : ErrorBound) (hvalid : ValidErrorBound eb) (t0 : Int) (b0 : Nat) (others : List (Int × Nat))
    (hne : others ≠ []) (hinc : StrictlyIncreasing (t0 :: others.map Prod.fst))
    (hspan : ∀ p ∈ others, p.1 - t0 < 2 ^ 63) (hfinite : (FVal.ofBits32 b0).isFinite = true) {M G T : ℚ}
    (hscale : LinearScale eb t0 (realValue b0) (others.map fun p => (p.1, realValue p.2)) M G T)
    (hsmall : (others.length + 1) * (G * T + M) / 2 ^ 47 ≤ M)
    (s : Swing) (h : swingFit f64Ops eb ((t0, b0) :: others) = some s) :
    List.Forall₂ (fun p w => ∃ r, w.toRat? = some r ∧ |r - realValue p.2| ≤ (1 - margin eb) * allowed eb (realValue p.2) +
      linearSlack (others.length + 1) M G T ((others.map Prod.fst).getLastD t0 - t0)) ((t0, b0) :: others)
      (swingRead f64Ops s ((t0, b0) :: others)) := by
  obtain ⟨σ, hfirst, hstart, hstop, hok, h32, his, hσ, hσG, hall0, hall⟩ := linear_slope64 eb hvalid t0 b0 others hne hinc hspan hfinite
    hscale s h
  unfold swingRead
  simp only [List.map_cons, List.headD_cons]
  have hts : others.map Prod.fst ≠ [] := by simpa using hne
  rw [List.getLastD_cons]
  have hafter : ∀ p ∈ others, t0 < p.1 := by
    intro p hp
    rw [StrictlyIncreasing, List.pairwise_cons] at hinc
    exact hinc.1 _ (List.mem_map_of_mem hp)
  have hlastmem : (others.map Prod.fst).getLastD t0 ∈ others.map Prod.fst := getLastD_mem hts
  obtain ⟨pl, hpl, hple⟩ := List.mem_map.mp hlastmem
  have hT0 := hafter pl hpl
  have hT1 := hspan pl hpl
  rw [hple] at hT0 hT1
  have hM : pow2 (-126) ≤ M := by
    refine le_trans (le_of_eq ?_) hscale.normal
    rw [pow2_eq]; norm_num
  have hM0 : 0 ≤ M := le_trans (abs_nonneg _) hscale.first.1
  have hTn : 0 ≤ T := le_trans (abs_nonneg _) hscale.first.2
  have hA : 0 ≤ G * T := mul_nonneg hscale.nonneg hTn
  have hn : (0 : ℚ) ≤ others.length := by positivity
  have hnA : 0 ≤ (others.length : ℚ) * (G * T + M) := mul_nonneg hn (by linarith)
  have hsmall' : (others.length : ℚ) * (G * T + M) * (1 / 2 ^ 47) + (G * T + M) * (1 / 2 ^ 47) ≤ M := by
    have e : ((others.length : ℚ) + 1) * (G * T + M) / 2 ^ 47 =
        (others.length : ℚ) * (G * T + M) * (1 / 2 ^ 47) + (G * T + M) * (1 / 2 ^ 47) := by ring
    rw [e] at hsmall
    exact hsmall
  obtain ⟨δl, l5, l6, l7, hokl1, hokl2⟩ := hall pl hpl
  rw [hple] at hokl1 hokl2
  have hmeml : (pl.1, realValue pl.2) ∈ others.map fun p => (p.1, realValue p.2) := List.mem_map.mpr ⟨pl, hpl, rfl⟩
  have hdl := hscale.deviation _ hmeml
  have hvlM := hscale.value _ hmeml
  dsimp only at hdl hvlM
  -- a value read
  have hread : ∀ (t : Int) (v δ : ℚ), t0 ≤ t → t ≤ (others.map Prod.fst).getLastD t0 → |(t : ℚ)| ≤ T →
      realValue b0 + σ * (t - t0) ≤ v + δ + others.length * (G * T + M) * (1 / 2 ^ 47) →
      v - δ - others.length * (G * T + M) * (1 / 2 ^ 47) ≤ realValue b0 + σ * (t - t0) → |v| ≤ M → δ ≤ M →
      ∀ d, δ ≤ d →
      ∃ r, (f64Ops.toValue (lineAt f64Ops
        (computeSlopeAndIntercept f64Ops t0 (s.model f64Ops).1 ((others.map Prod.fst).getLastD t0) (s.model f64Ops).2).1
        (computeSlopeAndIntercept f64Ops t0 (s.model f64Ops).1 ((others.map Prod.fst).getLastD t0) (s.model f64Ops).2).2 t)).toRat? =
          some r ∧ |r - v| ≤ d + linearSlack (others.length + 1) M G T ((others.map Prod.fst).getLastD t0 - t0) := by
    intro t v δ h1 h2 h3 h4 h5 h6 h7 d h8
    obtain ⟨r, ⟨sr, mr, hr, hr'⟩, hre⟩ := read64 (t := t) hfirst hstart hstop hok h32 his hσ hσG hokl1 hokl2
      (by linarith) hscale.first.1 hvlM (by linarith) hM hscale.first.2 h3 hscale.limit.1 hscale.limit.2 (by linarith) hT0 hT1 h1 h2
      h4 h5 h6 h7
    refine ⟨r, by rw [hr]; simp only [FVal.toRat?]; rw [← hr']; rfl, le_trans hre ?_⟩
    unfold linearSlack
    push_cast
    have e : ((others.length : ℚ) + 1) * (G * T + M) / 2 ^ 47 =
        (others.length : ℚ) * (G * T + M) * (1 / 2 ^ 47) + (G * T + M) * (1 / 2 ^ 47) := by ring
    rw [e]
    linarith
  unfold swingGrid
  dsimp only
  rw [List.map_cons]
  refine List.Forall₂.cons ?_ ?_
  · refine hread t0 (realValue b0) 0 (le_refl _) hT0.le hscale.first.2 ?_ ?_ hscale.first.1 hM0 _ hall0
    · linarith
    · linarith
  · rw [List.map_map, List.forall₂_map_right_iff, List.forall₂_same]
    intro p hp
    obtain ⟨δ, e5, e6, e7, hokp1, hokp2⟩ := hall p hp
    have hmem : (p.1, realValue p.2) ∈ others.map fun p => (p.1, realValue p.2) := List.mem_map.mpr ⟨p, hp, rfl⟩
    have hd := hscale.deviation _ hmem
    dsimp only at hd
    have hle : p.1 ≤ (others.map Prod.fst).getLastD t0 := by
      rw [StrictlyIncreasing, List.pairwise_cons] at hinc
      exact le_getLastD hinc.2 (List.mem_map_of_mem hp)
    have h3 := hscale.time _ hmem
    have h4 := hscale.value _ hmem
    dsimp only at h3 h4
    exact hread p.1 (realValue p.2) δ (hafter p hp).le hle h3 hokp1 hokp2 h4 (by linarith) _ e6

/-- C07 as the code computes, if rounding is small compared to the error bound: every value read is within the error bound. -/
theorem C07_linear_model_within_bound_partial (eb : ErrorBound) (hvalid : ValidErrorBound eb) (t0 : Int) (b0 : Nat)
    (others : List (Int × Nat)) (hne : others ≠ []) (hinc : StrictlyIncreasing (t0 :: others.map Prod.fst))
    (hspan : ∀ p ∈ others, p.1 - t0 < 2 ^ 63) (hfinite : (FVal.ofBits32 b0).isFinite = true) {M G T : ℚ}
    (hscale : LinearScale eb t0 (realValue b0) (others.map fun p => (p.1, realValue p.2)) M G T)
    (hsmall : (others.length + 1) * (G * T + M) / 2 ^ 47 ≤ M)
    (hslack : ∀ p ∈ (t0, b0) :: others, linearSlack (others.length + 1) M G T ((others.map Prod.fst).getLastD t0 - t0) ≤
      margin eb * allowed eb (realValue p.2))
    (s : Swing) (h : swingFit f64Ops eb ((t0, b0) :: others) = some s) :
    List.Forall₂ (fun p w => WithinExact eb (FVal.ofBits32 p.2) w) ((t0, b0) :: others) (swingRead f64Ops s ((t0, b0) :: others)) := by
  have hread := C07_linear_model_rounding_partial eb hvalid t0 b0 others hne hinc hspan hfinite hscale hsmall s h
  obtain ⟨_, hfin⟩ := finite_acceptAll (ops := f64Ops) (t0 := t0) (eb := eb) hfinite (others.map fun p => (p.1, FVal.ofBits32 p.2)) (s := s)
    (by unfold swingFit at h; exact h)
  have hallfin : ∀ p ∈ (t0, b0) :: others, (FVal.ofBits32 p.2).isFinite = true := by
    intro p hp
    rcases List.mem_cons.mp hp with rfl | hp
    · exact hfinite
    · exact hfin (p.1, FVal.ofBits32 p.2) (List.mem_map.mpr ⟨p, hp, rfl⟩)
  rw [List.forall₂_iff_get] at hread ⊢
  refine ⟨hread.1, fun i h1 h2 => ?_⟩
  obtain ⟨r, hr, hre⟩ := hread.2 i h1 h2
  have hmem := List.get_mem ((t0, b0) :: others) ⟨i, h1⟩
  generalize ((t0, b0) :: others).get ⟨i, h1⟩ = p at *
  generalize (swingRead f64Ops s ((t0, b0) :: others)).get ⟨i, h2⟩ = w at *
  have hsl := hslack p hmem
  have hpf := hallfin p hmem
  cases hv : FVal.ofBits32 p.2 with
  | nan => rw [hv] at hpf; cases hpf
  | inf _ => rw [hv] at hpf; cases hpf
  | fin sg q =>
    have hq := (mag32_ofBits _ hv).nonneg
    have hrv : realValue p.2 = ratOf sg q := by unfold realValue; rw [hv]; rfl
    rw [hrv] at hre hsl
    have hdev : |ratOf sg q - r| ≤ allowed eb (ratOf sg q) := by
      rw [abs_sub_comm]
      have : (1 - margin eb) * allowed eb (ratOf sg q) + margin eb * allowed eb (ratOf sg q) = allowed eb (ratOf sg q) := by ring
      linarith
    cases w with
    | nan => cases hr
    | inf _ => cases hr
    | fin t m =>
      have hrm : ratOf t m = r := by simp only [FVal.toRat?] at hr; injection hr
      rw [← hrm] at hdev
      rcases valid_cases hvalid with rfl | ⟨b, hb, hb0, rfl⟩ | ⟨p', hp, hp0, hp100, rfl⟩
      · simp only [allowed] at hdev
        exact sub_eq_zero.mp (abs_nonpos_iff.mp hdev)
      · simp only [allowed] at hdev
        simp only [WithinExact]
        refine le_trans hdev ?_
        linarith
      · simp only [allowed] at hdev
        simp only [WithinExact]
        refine le_trans hdev ?_
        have : 0 ≤ p' / 100 * |ratOf sg q| := mul_nonneg (by linarith) (abs_nonneg _)
        linarith

/-- The last value that is read from a linear model is the last value that was stored for it, if the values are large compared to the
rounding. Residual values are stored relative to the one and read relative to the other. -/
theorem C07_linear_model_last_value_partial (eb : ErrorBound) (hvalid : ValidErrorBound eb) (t0 : Int) (b0 : Nat)
    (others : List (Int × Nat)) (hne : others ≠ []) (hinc : StrictlyIncreasing (t0 :: others.map Prod.fst))
    (hspan : ∀ p ∈ others, p.1 - t0 < 2 ^ 63) (hfinite : (FVal.ofBits32 b0).isFinite = true) {m M G T : ℚ}
    (hscale : LinearScale eb t0 (realValue b0) (others.map fun p => (p.1, realValue p.2)) M G T)
    (hm : ∀ p ∈ others, m + allowed eb (realValue p.2) ≤ |realValue p.2|)
    (hsmall : (others.length + 1) * (G * T + M) / 2 ^ 47 + M / 2 ^ 21 ≤ m / 2)
    (hlast : G * T / 2 ^ 49 + M / 2 ^ 46 + M * T / ((others.map Prod.fst).getLastD t0 - t0) / 2 ^ 69 < m / 2 ^ 27)
    (s : Swing) (h : swingFit f64Ops eb ((t0, b0) :: others) = some s) :
    (swingRead f64Ops s ((t0, b0) :: others)).getLast? = some (s.model f64Ops).2 := by
  obtain ⟨σ, hfirst, hstart, hstop, hok, h32, his, hσ, hσG, hall0, hall⟩ := linear_slope64 eb hvalid t0 b0 others hne hinc hspan hfinite
    hscale s h
  have hts : others.map Prod.fst ≠ [] := by simpa using hne
  have hafter : ∀ p ∈ others, t0 < p.1 := by
    intro p hp
    rw [StrictlyIncreasing, List.pairwise_cons] at hinc
    exact hinc.1 _ (List.mem_map_of_mem hp)
  have hlastmem : (others.map Prod.fst).getLastD t0 ∈ others.map Prod.fst := getLastD_mem hts
  obtain ⟨pl, hpl, hple⟩ := List.mem_map.mp hlastmem
  have hT0 := hafter pl hpl
  have hT1 := hspan pl hpl
  rw [hple] at hT0 hT1
  have hM : pow2 (-126) ≤ M := by
    refine le_trans (le_of_eq ?_) hscale.normal
    rw [pow2_eq]; norm_num
  have hM0 : 0 ≤ M := le_trans (abs_nonneg _) hscale.first.1
  have hTn : 0 ≤ T := le_trans (abs_nonneg _) hscale.first.2
  have hA : 0 ≤ G * T := mul_nonneg hscale.nonneg hTn
  obtain ⟨δl, l5, l6, l7, hokl1, hokl2⟩ := hall pl hpl
  rw [hple] at hokl1 hokl2
  have hmeml : (pl.1, realValue pl.2) ∈ others.map fun p => (p.1, realValue p.2) := List.mem_map.mpr ⟨pl, hpl, rfl⟩
  have hdl := hscale.deviation _ hmeml
  have hvlM := hscale.value _ hmeml
  have htlT := hscale.time _ hmeml
  dsimp only at hdl hvlM htlT
  rw [hple] at htlT
  have hml := hm pl hpl
  have hmM : m ≤ M := by linarith
  have e : ((others.length : ℚ) + 1) * (G * T + M) / 2 ^ 47 =
      (others.length : ℚ) * (G * T + M) * (1 / 2 ^ 47) + (G * T + M) * (1 / 2 ^ 47) := by ring
  rw [e] at hsmall
  have hm0 : 0 ≤ m := by
    have : 0 ≤ (others.length : ℚ) * (G * T + M) := mul_nonneg (by positivity) (by linarith)
    linarith
  have hread := last64 hfirst hstart hstop hok h32 his hσ hσG hokl1 hokl2 (by linarith) hscale.first.1 hvlM (by linarith) hM hscale.first.2
    htlT hscale.limit.1 hscale.limit.2 hT0 hT1 (by
      have e2 : (G * T + M * T / (((others.map Prod.fst).getLastD t0 : ℚ) - t0) * (1 / 2 ^ 20) + M) * (1 / 2 ^ 49) =
          G * T * (1 / 2 ^ 49) + M * (1 / 2 ^ 49) + M * T / (((others.map Prod.fst).getLastD t0 : ℚ) - t0) / 2 ^ 69 := by ring
      rw [e2]
      linarith)
  unfold swingRead swingGrid
  simp only [List.map_cons, List.headD_cons, List.getLastD_cons]
  have hlastt : (others.map Prod.fst).getLast? = some ((others.map Prod.fst).getLastD t0) := by
    rw [List.getLastD_eq_getLast?]
    cases hc : (others.map Prod.fst).getLast? with
    | none => exact absurd (List.getLast?_eq_none_iff.mp hc) hts
    | some _ => rfl
  rw [List.getLast?_cons, List.getLast?_map, hlastt]
  simp only [Option.map_some, Option.getD_some]
  rw [hread]

/-- C07 for lossless compression as the code computes, if rounding is small compared to the precision of the values: the values read are the
values that were accepted, and the last one is the one that was stored. -/
theorem C07_lossless_linear_model_exact_partial (t0 : Int) (b0 : Nat) (others : List (Int × Nat)) (hne : others ≠ [])
    (hinc : StrictlyIncreasing (t0 :: others.map Prod.fst)) (hspan : ∀ p ∈ others, p.1 - t0 < 2 ^ 63)
    (hfinite : (FVal.ofBits32 b0).isFinite = true) {m M G T : ℚ}
    (hscale : LinearScale .lossless t0 (realValue b0) (others.map fun p => (p.1, realValue p.2)) M G T)
    (hm : ∀ p ∈ (t0, b0) :: others, m ≤ |realValue p.2|)
    (hexact : (others.length + 1) * (G * T + M) / 2 ^ 46 + M * T / ((others.map Prod.fst).getLastD t0 - t0) / 2 ^ 69 < m / 2 ^ 26)
    (s : Swing) (h : swingFit f64Ops .lossless ((t0, b0) :: others) = some s) :
    List.Forall₂ (fun p w => w = FVal.ofBits32 p.2) ((t0, b0) :: others) (swingRead f64Ops s ((t0, b0) :: others)) ∧
      (swingRead f64Ops s ((t0, b0) :: others)).getLast? = some (s.model f64Ops).2 := by
  obtain ⟨σ, hfirst, hstart, hstop, hok, h32, his, hσ, hσG, _, hall⟩ := linear_slope64 .lossless (Or.inl rfl) t0 b0 others hne hinc hspan hfinite
    hscale s h
  obtain ⟨_, hfin⟩ := finite_acceptAll (ops := f64Ops) (t0 := t0) (eb := .lossless) hfinite (others.map fun p => (p.1, FVal.ofBits32 p.2)) (s := s)
    (by unfold swingFit at h; exact h)
  have hisv : ∀ b, (FVal.ofBits32 b).isFinite = true → Is (FVal.ofBits32 b) (realValue b) := by
    intro b hb
    unfold realValue
    cases hv : FVal.ofBits32 b with
    | nan => rw [hv] at hb; cases hb
    | inf _ => rw [hv] at hb; cases hb
    | fin sg q => exact is_fin _ _
  have hpfin : ∀ p ∈ others, (FVal.ofBits32 p.2).isFinite = true :=
    fun p hp => hfin (p.1, FVal.ofBits32 p.2) (List.mem_map.mpr ⟨p, hp, rfl⟩)
  have hts : others.map Prod.fst ≠ [] := by simpa using hne
  have hafter : ∀ p ∈ others, t0 < p.1 := by
    intro p hp
    rw [StrictlyIncreasing, List.pairwise_cons] at hinc
    exact hinc.1 _ (List.mem_map_of_mem hp)
  have hlastmem : (others.map Prod.fst).getLastD t0 ∈ others.map Prod.fst := getLastD_mem hts
  obtain ⟨pl, hpl, hple⟩ := List.mem_map.mp hlastmem
  have hT0 := hafter pl hpl
  have hT1 := hspan pl hpl
  rw [hple] at hT0 hT1
  have hM : pow2 (-126) ≤ M := by
    refine le_trans (le_of_eq ?_) hscale.normal
    rw [pow2_eq]; norm_num
  have hM0 : 0 ≤ M := le_trans (abs_nonneg _) hscale.first.1
  have hTn : 0 ≤ T := le_trans (abs_nonneg _) hscale.first.2
  have hA : 0 ≤ G * T := mul_nonneg hscale.nonneg hTn
  have hnA : 0 ≤ (others.length : ℚ) * (G * T + M) := mul_nonneg (by positivity) (by linarith)
  have hD0 : (0 : ℚ) < ((others.map Prod.fst).getLastD t0 : ℚ) - t0 := by
    have : ((t0 : Int) : ℚ) < ((others.map Prod.fst).getLastD t0 : Int) := by exact_mod_cast hT0
    linarith
  have hX0 : 0 ≤ M * T / (((others.map Prod.fst).getLastD t0 : ℚ) - t0) := div_nonneg (mul_nonneg hM0 hTn) hD0.le
  have e : ((others.length : ℚ) + 1) * (G * T + M) / 2 ^ 46 =
      2 * ((others.length : ℚ) * (G * T + M) * (1 / 2 ^ 47)) + (G * T + M) * (1 / 2 ^ 46) := by ring
  rw [e] at hexact
  have hfit : ∀ p ∈ (t0, b0) :: others,
      realValue b0 + σ * (p.1 - t0) ≤ realValue p.2 + others.length * (G * T + M) * (1 / 2 ^ 47) ∧
        realValue p.2 - others.length * (G * T + M) * (1 / 2 ^ 47) ≤ realValue b0 + σ * (p.1 - t0) := by
    intro p hp
    rcases List.mem_cons.mp hp with rfl | hp'
    · constructor <;> linarith
    · obtain ⟨δ, d0, _, d1, h1, h2⟩ := hall p hp'
      have : allowed .lossless (realValue p.2) = 0 := rfl
      rw [this] at d1
      have hδ : δ = 0 := le_antisymm d1 d0
      rw [hδ] at h1 h2
      constructor <;> linarith
  obtain ⟨l1, l2⟩ := hfit pl (List.mem_cons_of_mem _ hpl)
  rw [hple] at l1 l2
  have hmeml : (pl.1, realValue pl.2) ∈ others.map fun p => (p.1, realValue p.2) := List.mem_map.mpr ⟨pl, hpl, rfl⟩
  have hvlM := hscale.value _ hmeml
  dsimp only at hvlM
  have hml := hm pl (List.mem_cons_of_mem _ hpl)
  have hread : ∀ p ∈ (t0, b0) :: others, (s.model f64Ops).2 = FVal.ofBits32 pl.2 ∧ f64Ops.toValue (lineAt f64Ops
      (computeSlopeAndIntercept f64Ops t0 (s.model f64Ops).1 ((others.map Prod.fst).getLastD t0) (s.model f64Ops).2).1
      (computeSlopeAndIntercept f64Ops t0 (s.model f64Ops).1 ((others.map Prod.fst).getLastD t0) (s.model f64Ops).2).2 p.1) =
        FVal.ofBits32 p.2 := by
    intro p hp
    obtain ⟨f1, f2⟩ := hfit p hp
    have hmp := hm p hp
    have hpt : |(p.1 : ℚ)| ≤ T ∧ t0 ≤ p.1 ∧ p.1 ≤ (others.map Prod.fst).getLastD t0 ∧ (FVal.ofBits32 p.2).isFinite = true := by
      rcases List.mem_cons.mp hp with rfl | hp'
      · exact ⟨hscale.first.2, le_refl _, hT0.le, hfinite⟩
      · refine ⟨hscale.time (p.1, realValue p.2) (List.mem_map.mpr ⟨p, hp', rfl⟩), (hafter p hp').le, ?_, hpfin p hp'⟩
        rw [StrictlyIncreasing, List.pairwise_cons] at hinc
        exact le_getLastD hinc.2 (List.mem_map_of_mem hp')
    have e2 : (G * T + M * T / (((others.map Prod.fst).getLastD t0 : ℚ) - t0) * (1 / 2 ^ 20) + M) * (1 / 2 ^ 49) =
        G * T * (1 / 2 ^ 49) + M * (1 / 2 ^ 49) + M * T / (((others.map Prod.fst).getLastD t0 : ℚ) - t0) / 2 ^ 69 := by ring
    refine exact64 hfirst hstart hstop hok h32 his hσ hσG l1 l2 (by linarith) hscale.first.1 hvlM hM hscale.first.2 hpt.1 hscale.limit.1
      hscale.limit.2 hT0 hT1 hpt.2.1 hpt.2.2.1 (ok_ofBits _) (isF32_ofBits _) (hisv _ (hpfin pl hpl)) (ok_ofBits _) (isF32_ofBits _)
      (hisv _ hpt.2.2.2) f1 f2 (by linarith) ?_
    rw [e2]
    linarith
  have hlastt : (others.map Prod.fst).getLast? = some ((others.map Prod.fst).getLastD t0) := by
    rw [List.getLastD_eq_getLast?]
    cases hc : (others.map Prod.fst).getLast? with
    | none => exact absurd (List.getLast?_eq_none_iff.mp hc) hts
    | some _ => rfl
  constructor
  · unfold swingRead swingGrid
    simp only [List.map_cons, List.headD_cons, List.getLastD_cons]
    refine List.Forall₂.cons (hread (t0, b0) List.mem_cons_self).2 ?_
    rw [List.map_map, List.forall₂_map_right_iff, List.forall₂_same]
    intro p hp
    exact (hread p (List.mem_cons_of_mem _ hp)).2
  · unfold swingRead swingGrid
    simp only [List.map_cons, List.headD_cons, List.getLastD_cons]
    rw [List.getLast?_cons, List.getLast?_map, hlastt]
    simp only [Option.map_some, Option.getD_some]
    have h1 := hread pl (List.mem_cons_of_mem _ hpl)
    rw [hple] at h1
    rw [h1.2, h1.1]

/-- Five points, one second apart, with timestamps in milliseconds. -/
def scalePoints : List (Int × Nat) :=
  [(1600000001000, 0x3f800000), (1600000002000, 0x40100000), (1600000003000, 0x40400000), (1600000004000, 0x40800000)]

/-- The values `0, 1, 2.25, 3, 4` with the absolute error bound `0.5` meet the conditions with the scale `5`, `0.0016` and `1600000004000`. -/
example : ∃ s, swingFit f64Ops (.absolute (.fin false (1 / 2))) ((1600000000000, 0) :: scalePoints) = some s ∧ s.length = 5 ∧
    List.Forall₂ (fun p w => WithinExact (.absolute (.fin false (1 / 2))) (FVal.ofBits32 p.2) w) ((1600000000000, 0) :: scalePoints)
      (swingRead f64Ops s ((1600000000000, 0) :: scalePoints)) := by
  have hpts : (scalePoints.map fun p => (p.1, realValue p.2)) =
      [(1600000001000, 1), (1600000002000, 9 / 4), (1600000003000, 3), (1600000004000, 4)] := by decide +kernel
  have h0 : realValue 0 = 0 := by decide +kernel
  refine ⟨(swingFit f64Ops (.absolute (.fin false (1 / 2))) ((1600000000000, 0) :: scalePoints)).get (by decide +kernel),
    (Option.some_get _).symm, by decide +kernel, ?_⟩
  refine C07_linear_model_within_bound_partial (M := 5) (G := 16 / 10000) (T := 1600000004000) _
    (Or.inr ⟨0x3f000000, by decide, Or.inl (by decide +kernel)⟩) _ _ _ (by decide) (by unfold StrictlyIncreasing; decide) (by decide) (by decide +kernel)
    ?_ ?_ ?_ _ (Option.some_get _).symm
  · rw [hpts, h0]
    refine ⟨by norm_num, by norm_num, ?_, ?_, ?_, ?_, by norm_num, by norm_num⟩
    all_goals
      intro p hp
      fin_cases hp <;> norm_num [allowed, abs_of_nonneg]
  · norm_num [scalePoints]
  · intro p _
    norm_num [linearSlack, scalePoints, margin, allowed]

/-- Eight points, seven units of time apart, whose values are almost on a line. -/
def roundingPoints : List (Int × Nat) :=
  [(1600000000000, 0x0), (1600000000007, 0x3eaaaaab), (1600000000014, 0x3f2aaa00), (1600000000021, 0x3f800000),
   (1600000000028, 0x3faaaa80), (1600000000035, 0x3fd55500), (1600000000042, 0x40000000), (1600000000049, 0x40155540)]

/-- **C07** is false of the code because of rounding: a lossless linear model accepts eight points whose
values differ from those read, the second one by more than `0.000005`. -/
theorem C07_linear_model_out_of_bound :
    ∃ (eb : ErrorBound) (points : List (Int × Nat)) (s : Swing), ValidErrorBound eb ∧
      StrictlyIncreasing (points.map Prod.fst) ∧ swingFit f64Ops eb points = some s ∧
      ¬ List.Forall₂ (fun p w => WithinExact eb (FVal.ofBits32 p.2) w ∨
          isValueWithinErrorBound eb (FVal.ofBits32 p.2) w = true) points (swingRead f64Ops s points) := by
  refine ⟨.lossless, roundingPoints, (swingFit f64Ops .lossless roundingPoints).get (by decide +kernel), Or.inl rfl,
    by unfold StrictlyIncreasing; decide, (Option.some_get _).symm, ?_⟩
  intro hc
  have h1 : (swingRead f64Ops ((swingFit f64Ops .lossless roundingPoints).get (by decide +kernel)) roundingPoints)[1]? =
      some (.fin false (21845 / 65536)) := by
    decide +kernel
  have h2 : roundingPoints[1]? = some (1600000000007, 0x3eaaaaab) := rfl
  rw [List.forall₂_iff_get] at hc
  obtain ⟨h1a, h1b⟩ := List.getElem?_eq_some_iff.mp h1
  have h3 := hc.2 1 (by decide) h1a
  simp only [List.get_eq_getElem] at h3
  rw [h1b, show roundingPoints[1] = (1600000000007, 0x3eaaaaab) from rfl,
    show FVal.ofBits32 (1600000000007, 0x3eaaaaab).2 = .fin false (11184811 / 33554432) by decide +kernel] at h3
  rcases h3 with h3 | h3
  · simp only [WithinExact, ratOf] at h3
    norm_num at h3
  · revert h3; decide +kernel

end ModelarDB.Props
