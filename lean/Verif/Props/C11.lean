import Verif.Props.C10
/-
C11: lossy series read back within the error bound.
-/
namespace ModelarDB.Props
open Model Spec Lemmas

/-- The value `w` that is read is within the error bound of the ingested value `v`, in exact arithmetic. -/
def ReadWithin (eb : ErrorBound) (v w : Nat) : Prop := WithinExact eb (FVal.ofBits32 v) (FVal.ofBits32 w)

theorem withinExact_refl {eb : ErrorBound} (hvalid : ValidErrorBound eb) (x : FVal) : WithinExact eb x x := by
  rcases valid_cases hvalid with rfl | ⟨b, hb, _, rfl⟩ | ⟨p, hp, _, _, rfl⟩ <;> cases x <;>
    simp only [WithinExact, sub_self, abs_zero]
  · positivity
  · positivity

/-- **C11** for series without NaN whose values are neither too large (`XorGuard`, see C05) for the
error bound, for absolute bounds and relative bounds up to 99.9999 percent: the series is compressed
without an error and all segments read back in order give its timestamps and values within the error
bound, provided that the linear models that were chosen do. -/
theorem C11_lossy_readback_partial (log2 : Log2) (hlog : Log2Accurate log2) (eb : ErrorBound)
    (hvalid : ValidErrorBound eb)
    (hrel : ∀ s r, eb = .relative (.fin s r) → (2 : ℚ) ^ (-100 : ℤ) ≤ r ∧ r ≤ 99.9999)
    (ts : List Int) (vs : List Nat) (hlen : ts.length = vs.length) (hne : ts ≠ []) (hrange : ∀ t ∈ ts, IsI64 t)
    (hinc : StrictlyIncreasing ts) (hsize : ts.length < 2 ^ 63) (h32 : ∀ v ∈ vs, v < 2 ^ 32)
    (hnonan : ∀ v ∈ vs, (FVal.ofBits32 v).isNan = false) (hguard : ∀ v ∈ vs, XorGuard eb (FVal.ofBits32 v))
    (hlinear : LinearFaithful (ReadWithin eb) eb ts vs) :
    ∃ segments ws, tryCompressUnivariate log2 eb ts vs = .segments segments ∧
      gridAll segments = some (ts, ws) ∧ List.Forall₂ (ReadWithin eb) vs ws := by
  refine readback (ReadWithin eb) log2 eb ts vs (fun v => withinExact_refl hvalid _) ?_ ?_ ?_ hlen hne hrange hinc
    hsize h32 hnonan hlinear
  · intro v w h hv
    unfold ReadWithin at h
    cases hw : FVal.ofBits32 w with
    | nan =>
      rw [hw] at h
      rcases valid_cases hvalid with rfl | ⟨b, _, _, rfl⟩ | ⟨p, _, _, _, rfl⟩ <;> cases hv' : FVal.ofBits32 v <;>
        rw [hv'] at h hv <;> simp [WithinExact, FVal.isNan] at h hv
    | _ => rfl
  · intro base l hl
    refine List.Forall₂.imp (fun v w h => ?_)
      (stored_within hlog hvalid (last := base) (fun v hv => h32 v (hl v hv)) (fun v hv => hguard v (hl v hv)))
    exact check_sound eb hvalid (fun s r e => (hrel s r e).1) (isF32_ofBits v) (isF32_ofBits w) h
  · intro l p _ h v hv
    exact C06_constant_model_within_bound_partial eb hvalid hrel l p h v hv
      p.model.toBits32 (List.mem_replicate.mpr ⟨(List.length_pos_of_mem hv).ne', rfl⟩)

/-- Five values around `1` with the absolute error bound `0.25`; no linear model is chosen. -/
example : LinearFaithful (ReadWithin (.absolute (.fin false (1 / 4)))) (.absolute (.fin false (1 / 4)))
    [0, 1, 2, 3, 7] [0x3f800000, 0x3f8ccccd, 0x3f666666, 0x40a00000, 0x3f800000] :=
  linearFaithful_of_none (by decide +kernel)

theorem kept_length {n : Nat} (h : (swingBytesPerValue n).le (.fin false 4) = true) : 2 ≤ n := by
  by_contra hc
  have : n = 0 ∨ n = 1 := by omega
  rcases this with rfl | rfl
  · revert h; decide +kernel
  · revert h; decide +kernel

theorem isF32_swingGrid {t0 t1 : Int} {x y : FVal} {ts : List Int} : ∀ w ∈ swingGrid f64Ops t0 t1 x y ts, IsF32 w := by
  intro w hw
  unfold swingGrid at hw
  obtain ⟨t, _, rfl⟩ := List.mem_map.mp hw
  refine isF32_convert _ fun sg q h => ?_
  have : Ok (lineAt f64Ops (computeSlopeAndIntercept f64Ops t0 x t1 y).1 (computeSlopeAndIntercept f64Ops t0 x t1 y).2 t) := by
    unfold lineAt; exact ok_add
  rw [h] at this
  exact this

/-- The scale of the points of a linear model. -/
theorem linearScale_of {eb : ErrorBound} {points : List (Int × Nat)} {m M G T D : ℚ}
    (hscale : SeriesScale eb points m M G T D) {t0 : Int} {b0 : Nat} {rest : List (Int × Nat)}
    (hsub : ((t0, b0) :: rest).Sublist points) (hfin : ∀ p ∈ (t0, b0) :: rest, FiniteBits p.2) :
    LinearScale eb t0 (realValue b0) (rest.map fun p => (p.1, realValue p.2)) M G T := by
  obtain ⟨hm0, hG0, hD0⟩ := hscale.positive
  have hmem : (t0, b0) ∈ points := hsub.subset List.mem_cons_self
  have hf0 : FiniteBits b0 := hfin (t0, b0) List.mem_cons_self
  have hslope := hscale.slope.sublist hsub
  rw [List.pairwise_cons] at hslope
  have hv0 := hscale.value (t0, b0) hmem hf0
  have ht0 := hscale.time (t0, b0) hmem
  dsimp only at hv0 ht0
  have hlim : T ≤ 2 ^ 64 := le_trans hscale.limit.2.1 (by norm_num)
  constructor
  · exact ⟨hv0, ht0⟩
  · exact hscale.limit.1
  · intro p hp
    obtain ⟨q, hq, rfl⟩ := List.mem_map.mp hp
    exact hscale.value q (hsub.subset (List.mem_cons_of_mem _ hq)) (hfin q (List.mem_cons_of_mem _ hq))
  · intro p hp
    obtain ⟨q, hq, rfl⟩ := List.mem_map.mp hp
    have h1 := hscale.value q (hsub.subset (List.mem_cons_of_mem _ hq)) (hfin q (List.mem_cons_of_mem _ hq))
    have h2 := hscale.least q (hsub.subset (List.mem_cons_of_mem _ hq)) (hfin q (List.mem_cons_of_mem _ hq))
    dsimp only
    linarith
  · intro p hp
    obtain ⟨q, hq, rfl⟩ := List.mem_map.mp hp
    exact hscale.time q (hsub.subset (List.mem_cons_of_mem _ hq))
  · intro p hp
    obtain ⟨q, hq, rfl⟩ := List.mem_map.mp hp
    exact hslope.1 q hq hf0 (hfin q (List.mem_cons_of_mem _ hq))
  · exact hG0
  · exact ⟨hlim, hscale.limit.2.2⟩

theorem linear_of_scale_finite {eb : ErrorBound} (hvalid : ValidErrorBound eb) {points : List (Int × Nat)} {m M G T D : ℚ}
    (hscale : SeriesScale eb points m M G T D) {t0 : Int} {b0 : Nat} {rest : List (Int × Nat)} (hne : rest ≠ [])
    (hsub : ((t0, b0) :: rest).Sublist points) (hfin : ∀ p ∈ (t0, b0) :: rest, FiniteBits p.2)
    (hinc : StrictlyIncreasing (t0 :: rest.map Prod.fst)) (hspan : ∀ p ∈ rest, p.1 - t0 < 2 ^ 63)
    {s : Swing} (h : swingFit f64Ops eb ((t0, b0) :: rest) = some s) :
    List.Forall₂ (fun p w => WithinExact eb (FVal.ofBits32 p.2) w) ((t0, b0) :: rest) (swingRead f64Ops s ((t0, b0) :: rest)) ∧
      (swingRead f64Ops s ((t0, b0) :: rest)).getLast? = some (s.model f64Ops).2 := by
  have hlin := linearScale_of hscale hsub hfin
  obtain ⟨hm0, hG0, hD0⟩ := hscale.positive
  have hf0 : FiniteBits b0 := hfin (t0, b0) List.mem_cons_self
  have hM0 : 0 ≤ M := le_trans (abs_nonneg _) hlin.first.1
  have hT0 : 0 ≤ T := le_trans (abs_nonneg _) hlin.first.2
  have hGT : 0 ≤ G * T := mul_nonneg hG0 hT0
  have hA : 0 ≤ G * T + M := add_nonneg hGT hM0
  have hapart := hscale.apart.sublist hsub
  rw [List.pairwise_cons] at hapart
  have hlast : D ≤ ((rest.map Prod.fst).getLastD t0 : ℚ) - t0 := by
    have hts : rest.map Prod.fst ≠ [] := by simpa using hne
    obtain ⟨pl, hpl, hple⟩ := List.mem_map.mp (getLastD_mem (d := t0) hts)
    rw [← hple]
    exact hapart.1 pl hpl
  have hX : M * T / (((rest.map Prod.fst).getLastD t0 : ℚ) - t0) ≤ M * T / D :=
    div_le_div_of_nonneg_left (mul_nonneg hM0 hT0) hD0 hlast
  have hn : ((rest.length : ℚ) + 1) * (G * T + M) ≤ points.length * (G * T + M) := by
    refine mul_le_mul_of_nonneg_right ?_ hA
    have h1 := hsub.length_le
    rw [List.length_cons] at h1
    exact_mod_cast h1
  rcases hscale.rounding with ⟨rfl, hexact⟩ | ⟨hbounds, hsmall, hend⟩
  · obtain ⟨h1, h2⟩ := C07_lossless_linear_model_exact_partial t0 b0 rest hne hinc hspan hf0 (m := m) hlin
      (fun p hp => by
        have := hscale.least p (hsub.subset hp) (hfin p hp)
        rwa [show allowed .lossless (realValue p.2) = 0 from rfl, add_zero] at this) (by linarith) s h
    exact ⟨h1.imp fun p w hw => by rw [hw]; exact withinExact_refl hvalid _, h2⟩
  have hmM : m ≤ M := by
    have h1 := hscale.value (t0, b0) (hsub.subset List.mem_cons_self) hf0
    have h2 := hscale.least (t0, b0) (hsub.subset List.mem_cons_self) hf0
    obtain ⟨σ, _, _, _, _, _, _, _, _, h3, _⟩ := linear_slope64 eb hvalid t0 b0 rest hne hinc hspan hf0 hlin s h
    dsimp only at h1 h2
    have h4 : 0 ≤ allowed eb (realValue b0) := by
      have hpos : 0 < 1 - margin eb := by
        unfold margin; split <;> norm_num
      exact nonneg_of_mul_nonneg_right h3 hpos
    linarith
  have hbound : ∀ p ∈ (t0, b0) :: rest, linearSlack points.length M G T D ≤ margin eb * allowed eb (realValue p.2) :=
    fun p hp => hbounds p.2 (List.mem_map_of_mem (hsub.subset hp)) (hfin p hp)
  have hleast : ∀ p ∈ rest, m + allowed eb (realValue p.2) ≤ |realValue p.2| :=
    fun p hp => hscale.least p (hsub.subset (List.mem_cons_of_mem _ hp)) (hfin p (List.mem_cons_of_mem _ hp))
  have hslack : linearSlack (rest.length + 1) M G T ((rest.map Prod.fst).getLastD t0 - t0) ≤ linearSlack points.length M G T D := by
    unfold linearSlack
    push_cast
    linarith
  constructor
  · refine C07_linear_model_within_bound_partial eb hvalid t0 b0 rest hne hinc hspan hf0 hlin ?_ ?_ s h
    · linarith
    · intro p hp
      exact le_trans hslack (hbound p hp)
  · refine C07_linear_model_last_value_partial eb hvalid t0 b0 rest hne hinc hspan hf0 (m := m) hlin hleast ?_ ?_ s h
    · linarith
    · linarith

/-- A linear model of points one of which is not finite reads back the values and its last value. -/
theorem linear_not_finite {eb : ErrorBound} {pts : List (Int × Nat)} (hlen : 2 ≤ pts.length)
    (hinc : StrictlyIncreasing (pts.map Prod.fst)) (hrange : ∀ p ∈ pts, IsI64 p.1)
    (hspan : ∀ p ∈ pts, ∀ q ∈ pts, q.1 - p.1 < 2 ^ 63) (hnf : ∃ p ∈ pts, (FVal.ofBits32 p.2).isFinite = false)
    {s : Swing} (h : swingFit f64Ops eb pts = some s) :
    List.Forall₂ (fun p w => w = FVal.ofBits32 p.2) pts (swingRead f64Ops s pts) ∧
      (swingRead f64Ops s pts).getLast? = some (s.model f64Ops).2 := by
  have hread := C07_linear_model_not_finite eb pts hlen hinc hrange hspan hnf s h
  refine ⟨hread, ?_⟩
  obtain ⟨⟨t0, b0⟩, rest, rfl, hne⟩ := two_points hlen
  have hfit : acceptAll (swingStep f64Ops) (Swing.new eb)
      ((t0, FVal.ofBits32 b0) :: rest.map fun p => (p.1, FVal.ofBits32 p.2)) = some s := h
  have hf : (FVal.ofBits32 b0).isFinite = false := by
    by_contra hc
    obtain ⟨_, hfin⟩ := finite_acceptAll (by simpa using hc) _ hfit
    obtain ⟨p, hp, hpn⟩ := hnf
    rcases List.mem_cons.mp hp with rfl | hp
    · exact hc hpn
    · have := hfin (p.1, FVal.ofBits32 p.2) (List.mem_map.mpr ⟨p, hp, rfl⟩)
      dsimp only at this
      rw [hpn] at this; cases this
  have hinv := nonFinite_acceptAll hf _ hfit
  have hstop : s.endTime = (rest.map Prod.fst).getLastD t0 := by
    rw [hinv.stop, List.map_map]; rfl
  have hts : rest.map Prod.fst ≠ [] := by simpa using hne
  obtain ⟨pl, hpl, hple⟩ := List.mem_map.mp (getLastD_mem (d := t0) hts)
  have hT0 : t0 < s.endTime := by
    rw [hstop, ← hple]
    rw [StrictlyIncreasing, List.map_cons, List.pairwise_cons] at hinc
    exact hinc.1 _ (List.mem_map_of_mem hpl)
  have hT1 : s.endTime - t0 < 2 ^ 63 := by
    rw [hstop, ← hple]
    exact hspan (t0, b0) (by simp) pl (by simp [hpl])
  have hmodel := nonFinite_model nonFinite_f64 hf (by simpa using hne) hinv hT0 hT1
  rw [hmodel]
  dsimp only
  have hall : ∀ w ∈ swingRead f64Ops s ((t0, b0) :: rest), w = FVal.ofBits32 b0 := by
    intro w hw
    obtain ⟨n, hn, rfl⟩ := List.getElem_of_mem hw
    rw [List.forall₂_iff_get] at hread
    have hn' : n < ((t0, b0) :: rest).length := by rw [hread.1]; exact hn
    have := hread.2 n hn' hn
    simp only [List.get_eq_getElem] at this
    rw [this]
    rcases List.mem_cons.mp (List.getElem_mem hn') with he | hm
    · rw [he]
    · exact hinv.values (((t0, b0) :: rest)[n].1, FVal.ofBits32 ((t0, b0) :: rest)[n].2) (List.mem_map.mpr ⟨_, hm, rfl⟩)
  cases hg : (swingRead f64Ops s ((t0, b0) :: rest)).getLast? with
  | none =>
    rw [List.getLast?_eq_none_iff] at hg
    rw [List.forall₂_iff_get, hg] at hread
    have := hread.1
    simp at this
  | some w => rw [hall w (List.mem_of_getLast? hg)]

/-- A linear model of points of a series with a suitable scale reads back values within the error bound and its last value. -/
theorem linear_of_scale {eb : ErrorBound} (hvalid : ValidErrorBound eb) {points : List (Int × Nat)} {m M G T D : ℚ}
    (hscale : SeriesScale eb points m M G T D) {pts : List (Int × Nat)} (hsub : pts.Sublist points) (hlen : 2 ≤ pts.length)
    (hrange : ∀ p ∈ pts, IsI64 p.1) {s : Swing} (h : swingFit f64Ops eb pts = some s) :
    List.Forall₂ (fun p w => WithinExact eb (FVal.ofBits32 p.2) w) pts (swingRead f64Ops s pts) ∧
      (swingRead f64Ops s pts).getLast? = some (s.model f64Ops).2 := by
  have hapart := hscale.apart.sublist hsub
  obtain ⟨hm0, hG0, hD0⟩ := hscale.positive
  have hinc : StrictlyIncreasing (pts.map Prod.fst) := by
    unfold StrictlyIncreasing
    rw [List.pairwise_map]
    refine hapart.imp fun {p q} h => ?_
    have : (p.1 : ℚ) < q.1 := by linarith
    exact_mod_cast this
  have htime : ∀ p ∈ pts, |(p.1 : ℚ)| ≤ T := fun p hp => hscale.time p (hsub.subset hp)
  have hspan : ∀ p ∈ pts, ∀ q ∈ pts, q.1 - p.1 < 2 ^ 63 := by
    intro p hp q hq
    have a := abs_le.mp (htime p hp)
    have b := abs_le.mp (htime q hq)
    have c := hscale.limit.2.1
    have : ((q.1 - p.1 : Int) : ℚ) < ((2 ^ 63 : Int) : ℚ) := by push_cast; linarith
    exact_mod_cast this
  by_cases hnf : ∃ p ∈ pts, (FVal.ofBits32 p.2).isFinite = false
  · obtain ⟨h1, h2⟩ := linear_not_finite hlen hinc hrange hspan hnf h
    exact ⟨h1.imp fun p w hw => by rw [hw]; exact withinExact_refl hvalid _, h2⟩
  · have hfin : ∀ p ∈ pts, FiniteBits p.2 := by
      intro p hp
      by_contra hc
      exact hnf ⟨p, hp, by unfold FiniteBits at hc; simpa using hc⟩
    obtain ⟨⟨t0, b0⟩, rest, rfl, hne⟩ := two_points hlen
    exact linear_of_scale_finite hvalid hscale hne hsub hfin hinc (fun p hp => hspan (t0, b0) (by simp) p (by simp [hp])) h

/-- The linear models of a series read back related values if all linear models of points of the series do. -/
theorem faithful_of_lines {R : Nat → Nat → Prop} {eb : ErrorBound} {ts : List Int} {vs : List Nat} (hlen : ts.length = vs.length)
    (hrange : ∀ t ∈ ts, IsI64 t)
    (hlines : ∀ pts : List (Int × Nat), pts.Sublist (ts.zip vs) → 2 ≤ pts.length → (∀ p ∈ pts, IsI64 p.1) →
      ∀ s, swingFit f64Ops eb pts = some s →
        List.Forall₂ (fun p w => ∀ b, FVal.ofBits32 b = w → R p.2 b) pts (swingRead f64Ops s pts) ∧
          (swingRead f64Ops s pts).getLast? = some (s.model f64Ops).2) :
    LinearFaithful R eb ts vs := by
  intro i hi sw hm hkept hacc t0 t1 h0 h1
  obtain ⟨hb, h1⟩ := List.getElem?_eq_some_iff.mp h1
  obtain ⟨_, h0⟩ := List.getElem?_eq_some_iff.mp h0
  have hk : 2 ≤ sw.length := by
    rw [hm] at hkept
    exact kept_length hkept
  have hab : i ≤ i + sw.length - 1 := by omega
  have hslt := sliceIncl_length ts (a := i) hb
  have hslv := sliceIncl_length vs (a := i) (b := i + sw.length - 1) (by omega)
  have hzip : (sliceIncl ts i (i + sw.length - 1)).zip (sliceIncl vs i (i + sw.length - 1)) = sliceIncl (ts.zip vs) i (i + sw.length - 1) := by
    unfold sliceIncl
    unfold List.zip
    rw [List.take_zipWith, List.drop_zipWith]
  obtain ⟨pts, hpts⟩ : ∃ pts, pts = (sliceIncl ts i (i + sw.length - 1)).zip (sliceIncl vs i (i + sw.length - 1)) := ⟨_, rfl⟩
  have hfst : pts.map Prod.fst = sliceIncl ts i (i + sw.length - 1) := by
    rw [hpts]; exact List.map_fst_zip (by omega)
  have hsnd : pts.map Prod.snd = sliceIncl vs i (i + sw.length - 1) := by
    rw [hpts]; exact List.map_snd_zip (by omega)
  have hplen : pts.length = sw.length := by
    have := congrArg List.length hfst
    rw [List.length_map, hslt] at this
    omega
  have hsub : pts.Sublist (ts.zip vs) := by rw [hpts, hzip]; exact sliceIncl_sublist _ _ _
  rw [← hpts] at hacc
  obtain ⟨hall, hlast⟩ := hlines pts hsub (by omega) (by
    intro p hp
    have : p.1 ∈ sliceIncl ts i (i + sw.length - 1) := by rw [← hfst]; exact List.mem_map_of_mem hp
    exact hrange _ (sliceIncl_mem this)) sw hacc
  have hread : swingRead f64Ops sw pts = swingGrid f64Ops t0 t1 (sw.model f64Ops).1 (sw.model f64Ops).2 (sliceIncl ts i (i + sw.length - 1)) := by
    unfold swingRead
    rw [hfst]
    have hne := sliceIncl_ne_nil ts hab hb
    have e0 : (sliceIncl ts i (i + sw.length - 1)).headD 0 = t0 := by
      rw [List.headD_eq_head?_getD, List.head?_eq_some_head hne, sliceIncl_head ts hab hb]
      exact h0
    have e1 : (sliceIncl ts i (i + sw.length - 1)).getLastD 0 = t1 := by
      rw [List.getLastD_eq_getLast?, List.getLast?_eq_some_getLast hne, sliceIncl_getLast ts hab hb]
      exact h1
    rw [e0, e1]
  rw [hread] at hall hlast
  constructor
  · rw [← hsnd, List.forall₂_map_left_iff, List.forall₂_map_right_iff]
    have hmem : ∀ w ∈ swingGrid f64Ops t0 t1 (sw.model f64Ops).1 (sw.model f64Ops).2 (sliceIncl ts i (i + sw.length - 1)), IsF32 w :=
      isF32_swingGrid
    rw [List.forall₂_iff_get] at hall ⊢
    refine ⟨hall.1, fun j h1 h2 => ?_⟩
    exact hall.2 j h1 h2 _ (ofBits_toBits (hmem _ (List.get_mem _ _)))
  · rw [List.getLast?_map, hlast]
    rfl

/-- The linear models of a series with a suitable scale read back values within the error bound. -/
theorem faithful_of_scale {eb : ErrorBound} (hvalid : ValidErrorBound eb) {ts : List Int} {vs : List Nat} (hlen : ts.length = vs.length)
    (hrange : ∀ t ∈ ts, IsI64 t) {m M G T D : ℚ} (hscale : SeriesScale eb (ts.zip vs) m M G T D) :
    LinearFaithful (ReadWithin eb) eb ts vs := by
  refine faithful_of_lines hlen hrange fun pts hsub h2 hr s h => ?_
  obtain ⟨hall, hlast⟩ := linear_of_scale hvalid hscale hsub h2 hr h
  exact ⟨hall.imp fun p w hw b hb => by unfold ReadWithin; rw [hb]; exact hw, hlast⟩

/-- **C11** with conditions on the ingested points only: for a series without NaN whose values are neither too large (`XorGuard`) nor too small
or too steep (`SeriesScale`) for the error bound, all segments read back in order give its timestamps and values within the error bound. -/
theorem C11_lossy_readback_scale_partial (log2 : Log2) (hlog : Log2Accurate log2) (eb : ErrorBound)
    (hvalid : ValidErrorBound eb)
    (hrel : ∀ s r, eb = .relative (.fin s r) → (2 : ℚ) ^ (-100 : ℤ) ≤ r ∧ r ≤ 99.9999)
    (ts : List Int) (vs : List Nat) (hlen : ts.length = vs.length) (hne : ts ≠ []) (hrange : ∀ t ∈ ts, IsI64 t)
    (hinc : StrictlyIncreasing ts) (hsize : ts.length < 2 ^ 63) (h32 : ∀ v ∈ vs, v < 2 ^ 32)
    (hnonan : ∀ v ∈ vs, (FVal.ofBits32 v).isNan = false) (hguard : ∀ v ∈ vs, XorGuard eb (FVal.ofBits32 v))
    {m M G T D : ℚ} (hscale : SeriesScale eb (ts.zip vs) m M G T D) :
    ∃ segments ws, tryCompressUnivariate log2 eb ts vs = .segments segments ∧
      gridAll segments = some (ts, ws) ∧ List.Forall₂ (ReadWithin eb) vs ws :=
  C11_lossy_readback_partial log2 hlog eb hvalid hrel ts vs hlen hne hrange hinc hsize h32 hnonan hguard
    (faithful_of_scale hvalid hlen hrange hscale)

/-- Twelve points, a minute apart with timestamps in milliseconds: ten values from `100` to `104.5` almost on a line, then `106` and `101`. -/
def minuteSeries : List Int × List Nat :=
  ([1600000000000, 1600000060000, 1600000120000, 1600000180000, 1600000240000, 1600000300000, 1600000360000,
    1600000420000, 1600000480000, 1600000540000, 1600000600000, 1600000660000],
   [0x42c80000, 0x42c90000, 0x42ca2000, 0x42cb0000, 0x42cbe000, 0x42cd0000, 0x42ce1000, 0x42cf0000, 0x42d00000, 0x42d10000,
    0x42d40000, 0x42ca0000])

/-- With the absolute error bound `0.25` the scale of the series is suitable. -/
theorem minuteSeries_scale :
    SeriesScale (.absolute (.fin false (1 / 4))) (minuteSeries.1.zip minuteSeries.2) 90 128 (1 / 10000) 1600000660000 60000 := by
  refine ⟨?_, ?_, ?_, ?_, ?_, ?_, ?_, ?_⟩
  · unfold FiniteBits; decide +kernel
  · unfold FiniteBits; decide +kernel
  · decide +kernel
  · decide +kernel
  · unfold FiniteBits; decide +kernel
  · norm_num
  · norm_num
  · refine Or.inr ⟨?_, ?_, ?_⟩
    · intro v _ _
      norm_num [linearSlack, minuteSeries, margin, allowed]
    · norm_num [minuteSeries]
    · norm_num

theorem minuteSeries_guard : ∀ v ∈ minuteSeries.2, XorGuard (.absolute (.fin false (1 / 4))) (FVal.ofBits32 v) := by
  intro v hv
  fin_cases hv
  all_goals
    refine Or.inr ?_
    norm_num [pow2_eq]

/-- The hypotheses hold of the series and a linear model with ten points is kept. -/
example : SeriesScale (.absolute (.fin false (1 / 4))) (minuteSeries.1.zip minuteSeries.2) 90 128 (1 / 10000) 1600000660000 60000 ∧
    (fitNextModel 0 (.absolute (.fin false (1 / 4))) minuteSeries.1 minuteSeries.2).modelType = .swing ∧
    (fitNextModel 0 (.absolute (.fin false (1 / 4))) minuteSeries.1 minuteSeries.2).endIndex = 9 ∧
    (∀ v ∈ minuteSeries.2, XorGuard (.absolute (.fin false (1 / 4))) (FVal.ofBits32 v)) :=
  ⟨minuteSeries_scale, by decide +kernel, by decide +kernel, minuteSeries_guard⟩

/-- Eight points on a falling line and the value `1000`. -/
def fallingSeries : List Int × List Nat :=
  ([1600000000000, 1600000000010, 1600000000020, 1600000000030, 1600000000040, 1600000000050, 1600000000060,
    1600000000070, 1600000000080],
   [1077936128, 1076737755, 1075539383, 1074341010, 1072543451, 1070146706, 1067749961, 1065353216, 0x447a0000])

/-- **C11** is false of the code: with the absolute error bound `0.1` eight points on a line from `3` to
`1` followed by `1000` are compressed into one segment. The residual `1000` is encoded relative to the
last value of the model that is stored, `1 - 2 ^ -24`, but decoded relative to the last value that is
reconstructed, `1`, and read back as a value above `1071`. -/
theorem C11_residual_out_of_bound :
    ∃ segments ws, tryCompressUnivariate exactLog2 (.absolute (FVal.ofBits32 0x3dcccccd)) fallingSeries.1 fallingSeries.2 =
        .segments segments ∧
      gridAll segments = some (fallingSeries.1, ws) ∧
      fallingSeries.2[8]? = some 0x447a0000 ∧ FVal.ofBits32 0x447a0000 = .fin false 1000 ∧
      ∃ w, ws[8]? = some w ∧ FVal.lt (.fin false 1071) (FVal.ofBits32 w) = true := by
  refine ⟨[⟨.swing, 1600000000000, 1600000000080, [9], 1065353215, 1148846080, [3, 0, 0, 64, 64],
      [194, 255, 176, 95, 255, 240, 1]⟩],
    [1077936128, 1076737760, 1075539392, 1074341024, 1072543488, 1070146688, 1067749952, 1065353216, 1149632511],
    ?_, ?_, rfl, ?_, 1149632511, rfl, ?_⟩ <;> decide +kernel

/-- The same series satisfies every other condition of `C11_lossy_readback_partial`. -/
example : (∀ v ∈ fallingSeries.2, (FVal.ofBits32 v).isNan = false) ∧
    XorGuard (.absolute (FVal.ofBits32 0x3dcccccd)) (FVal.ofBits32 0x447a0000) := by
  refine ⟨by decide +kernel, ?_⟩
  rw [show FVal.ofBits32 0x3dcccccd = .fin false (13421773 / 134217728) by decide +kernel,
    show FVal.ofBits32 0x447a0000 = .fin false 1000 by decide +kernel]
  right
  norm_num

end ModelarDB.Props
