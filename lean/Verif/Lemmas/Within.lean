import Verif.Lemmas.FloatOps
import Verif.Spec.Within
/-
The check of error bounds in floating-point and its meaning in exact arithmetic.
-/
namespace ModelarDB.Lemmas
open Model Spec

theorem signed_eq_ratOf (s : Bool) (q : ℚ) : FVal.signed s q = ratOf s q := rfl

theorem signed_not (s : Bool) (q : ℚ) : FVal.signed (!s) q = -FVal.signed s q := by
  cases s <;> simp [FVal.signed]

/-- The absolute value of a rounded rational. -/
theorem abs_ofRat {fmt : Fmt} (z : Bool) (x : ℚ) :
    (FVal.ofRat fmt z x).abs =
      if pow2 fmt.emax ≤ roundMag fmt |x| then .inf false else .fin false (roundMag fmt |x|) := by
  unfold FVal.ofRat
  split
  · rename_i h
    subst h
    simp only [abs_zero, roundMag_zero, FVal.abs]
    rw [if_neg (not_le.mpr (pow2_pos _))]
  · split
    · rename_i h
      rw [abs_of_neg h]
      unfold FVal.round
      dsimp only
      split <;> rfl
    · rename_i h0 h
      rw [abs_of_nonneg (not_lt.mp h)]
      unfold FVal.round
      dsimp only
      split <;> rfl

theorem sub_fin {fmt : Fmt} (s t : Bool) (p q : ℚ) :
    FVal.sub fmt (.fin s p) (.fin t q) =
      FVal.ofRat fmt (s && !t) (FVal.signed s p - FVal.signed t q) := by
  simp only [FVal.sub, FVal.neg, FVal.add, signed_not]
  rw [← sub_eq_add_neg]

theorem le_inf_fin {s : Bool} {q : ℚ} : (FVal.inf false).le (.fin s q) = false := rfl

/-- Magnitudes of binary32 are multiples of `2 ^ -149`. -/
theorem multiple_of_rep {q : ℚ} (h : Representable f32Fmt q) : ∃ n : Int, q = n * pow2 (-149) := by
  obtain ⟨m, e, _, he, rfl⟩ := h
  have he' : -149 ≤ e := he
  refine ⟨m * 2 ^ (e + 149).toNat, ?_⟩
  have : pow2 e = 2 ^ (e + 149).toNat * pow2 (-149) := by
    have h1 : e = (((e + 149).toNat : Nat) : Int) + -149 := by omega
    conv_lhs => rw [h1]
    rw [pow2_add, pow2_natCast]
  rw [this]; push_cast; ring

/-- Relative error for differences of binary32 numbers: small differences are exact. -/
theorem roundMag_diff {x : ℚ} (n : Int) (hx : x = n * pow2 (-149)) :
    |(roundMag f32Fmt |x|) - (|x|)| ≤ |x| * pow2 (-24) := by
  have hp := pow2_pos (-149)
  by_cases h0 : x = 0
  · subst h0; simp [roundMag_zero]
  have hpos : 0 < |x| := abs_pos.mpr h0
  rcases lt_or_ge (ilog2 |x| - 23) (-149) with h | h
  · -- exact
    have hlt : |x| < pow2 (-126) := lt_of_lt_of_le (ilog2_spec hpos).2 (pow2_le (by omega))
    have hx' : |x| = (n.natAbs : ℚ) * pow2 (-149) := by
      rw [hx, abs_mul, abs_of_pos hp]
      congr 1
      rw [← Int.cast_abs]
      exact (Nat.cast_natAbs n).symm
    have hn : n.natAbs < 2 ^ 24 := by
      by_contra hn
      have h1 : ((2 ^ 24 : Nat) : ℚ) ≤ (n.natAbs : ℚ) := by exact_mod_cast not_lt.mp hn
      have h2 : pow2 (-125) ≤ |x| := by
        rw [hx']
        calc pow2 (-125) = pow2 24 * pow2 (-149) := by rw [← pow2_add]; rfl
          _ ≤ _ := by
            apply mul_le_mul_of_nonneg_right _ hp.le
            rw [pow2_eq]; exact_mod_cast h1
      have h3 := pow2_lt_iff.mp (lt_of_le_of_lt h2 hlt)
      omega
    have : roundMag f32Fmt |x| = |x| := by
      rw [hx']; exact roundMag_exact ⟨n.natAbs, -149, hn, by decide, rfl⟩
    rw [this, sub_self, abs_zero]
    exact mul_nonneg hpos.le (pow2_pos _).le
  · exact roundMag_rel hpos (by simp [f32Fmt]; omega)

theorem diff_multiple {s t : Bool} {p q : ℚ} (hp : Mag32 p) (hq : Mag32 q) :
    ∃ n : Int, FVal.signed s p - FVal.signed t q = n * pow2 (-149) := by
  obtain ⟨a, ha⟩ := multiple_of_rep hp.rep
  obtain ⟨b, hb⟩ := multiple_of_rep hq.rep
  cases s <;> cases t <;> simp only [FVal.signed, Bool.false_eq_true, if_false, if_true]
  · exact ⟨a - b, by rw [ha, hb]; push_cast; ring⟩
  · exact ⟨a + b, by rw [ha, hb]; push_cast; ring⟩
  · exact ⟨-a - b, by rw [ha, hb]; push_cast; ring⟩
  · exact ⟨-a + b, by rw [ha, hb]; push_cast; ring⟩

theorem equalOrNan_fin {s t : Bool} {p q : ℚ} :
    equalOrNan (.fin s p) (.fin t q) = true ↔ FVal.signed s p = FVal.signed t q := by
  simp [equalOrNan, FVal.eq, FVal.isNan]

theorem e24 : pow2 (-24) = 1 / 2 ^ 24 := by rw [pow2_eq]; norm_num

/-- Absolute error bound, two numbers. -/
theorem check_absolute_sound {b : ℚ} (hb : 0 < b) {s t : Bool} {p q : ℚ} (hp : Mag32 p) (hq : Mag32 q)
    (h : isValueWithinErrorBound (.absolute (.fin false b)) (.fin s p) (.fin t q) = true) :
    |ratOf s p - ratOf t q| ≤ b * (1 + 1 / 2 ^ 23) := by
  unfold isValueWithinErrorBound at h
  dsimp only at h
  split at h
  · rename_i he
    rw [equalOrNan_fin] at he
    simp only [← signed_eq_ratOf, he, sub_self, abs_zero]
    positivity
  · rw [sub_fin, abs_ofRat] at h
    split at h
    · rw [le_inf_fin] at h; cases h
    · rw [le_fin_pos] at h
      obtain ⟨n, hn⟩ := diff_multiple (s := s) (t := t) hp hq
      have hd := (abs_le.mp (roundMag_diff n hn)).1
      rw [e24] at hd
      simp only [← signed_eq_ratOf]
      nlinarith

theorem check_absolute_complete {b : ℚ} (hb : Mag32 b) {s t : Bool} {p q : ℚ}
    (h : |ratOf s p - ratOf t q| ≤ b) :
    isValueWithinErrorBound (.absolute (.fin false b)) (.fin s p) (.fin t q) = true := by
  unfold isValueWithinErrorBound
  dsimp only
  split
  · rfl
  · simp only [← signed_eq_ratOf] at h
    have h1 : roundMag f32Fmt |FVal.signed s p - FVal.signed t q| ≤ b :=
      roundMag_le (by decide) (abs_nonneg _) h hb.rep
    have h2 : b < pow2 f32Fmt.emax := hb.lt
    rw [sub_fin, abs_ofRat, if_neg (not_le.mpr (lt_of_le_of_lt h1 h2)), le_fin_pos]
    exact h1

theorem abs_signed {s : Bool} {q : ℚ} (hq : 0 ≤ q) : |FVal.signed s q| = q := by
  cases s <;> simp [FVal.signed, abs_of_nonneg hq]

theorem abs_round {fmt : Fmt} (s : Bool) (x : ℚ) :
    (FVal.round fmt s x).abs =
      if pow2 fmt.emax ≤ roundMag fmt x then .inf false else .fin false (roundMag fmt x) := by
  unfold FVal.round; dsimp only; split <;> rfl

theorem abs_div {fmt : Fmt} (a b : FVal) : (FVal.div fmt a b).abs = FVal.div fmt a.abs b.abs := by
  cases a with
  | nan => rfl
  | inf s => cases b <;> rfl
  | fin s p =>
    cases b with
    | nan => rfl
    | inf t => rfl
    | fin t q =>
      by_cases hq : q = 0
      · by_cases hp : p = 0
        · simp [FVal.div, hq, hp, FVal.abs]
        · simp [FVal.div, hq, hp, FVal.abs]
      · have h1 : FVal.div fmt (.fin s p) (.fin t q) = FVal.round fmt (s ^^ t) (p / q) := by
          simp [FVal.div, hq]
        have h2 : FVal.div fmt (FVal.fin s p).abs (FVal.fin t q).abs = FVal.round fmt false (p / q) := by
          simp [FVal.div, hq, FVal.abs]
        rw [h1, h2, abs_round]
        rfl

theorem roundMag32_down {q : ℚ} (h : pow2 (-126) ≤ q) : q * (1 - pow2 (-24)) ≤ roundMag f32Fmt q := by
  have hq : 0 < q := lt_of_lt_of_le (pow2_pos _) h
  have h1 : -126 ≤ ilog2 q := by
    have := pow2_lt_iff.mp (lt_of_le_of_lt h (ilog2_spec hq).2)
    omega
  have := roundMag_rel (fmt := f32Fmt) hq (by simp [f32Fmt]; omega)
  have h2 := (abs_le.mp this).1
  have h3 : (-(f32Fmt.prec : Int)) = -24 := rfl
  rw [h3] at h2
  linarith

/-- Relative error bound, two numbers. -/
theorem check_relative_sound {r : ℚ} (hr : pow2 (-100) ≤ r) {s t : Bool} {p q : ℚ} (hp : Mag32 p)
    (hq : Mag32 q)
    (h : isValueWithinErrorBound (.relative (.fin false r)) (.fin s p) (.fin t q) = true) :
    |ratOf s p - ratOf t q| ≤ r / 100 * |ratOf s p| * (1 + 1 / 2 ^ 22) := by
  have hr0 : 0 < r := lt_of_lt_of_le (pow2_pos _) hr
  unfold isValueWithinErrorBound at h
  dsimp only at h
  split at h
  · rename_i he
    rw [equalOrNan_fin] at he
    simp only [← signed_eq_ratOf, he, sub_self, abs_zero]
    positivity
  · rename_i hne
    rw [equalOrNan_fin] at hne
    rw [abs_div, sub_fin, abs_ofRat] at h
    obtain ⟨n, hn⟩ := diff_multiple (s := s) (t := t) hp hq
    have hd := (abs_le.mp (roundMag_diff n hn)).1
    rw [e24] at hd
    simp only [← signed_eq_ratOf, abs_signed hp.nonneg]
    generalize hx : |FVal.signed s p - FVal.signed t q| = x at *
    have hx0 : 0 < x := by rw [← hx]; exact abs_pos.mpr (sub_ne_zero.mpr hne)
    have hD0 : 0 < roundMag f32Fmt x := by nlinarith
    split at h
    · simp only [FVal.abs, FVal.div, Bool.xor_self, FVal.mul] at h
      rw [if_neg (by norm_num), le_inf_fin] at h
      cases h
    · simp only [FVal.abs, FVal.div, Bool.xor_self] at h
      generalize roundMag f32Fmt x = D at *
      split at h
      · rename_i hp0
        rw [if_neg (ne_of_gt hD0)] at h
        simp only [FVal.mul, Bool.xor_self] at h
        rw [if_neg (by norm_num), le_inf_fin] at h
        cases h
      · rename_i hp0
        have hppos : 0 < p := lt_of_le_of_ne hp.nonneg (Ne.symm hp0)
        rcases lt_or_ge (D / p) (pow2 (-126)) with hs | hs
        · rw [div_lt_iff₀ hppos] at hs
          have e1 : pow2 (-126) ≤ pow2 (-100) / 2 ^ 26 := by simp only [pow2_eq]; norm_num
          have : D < r / 2 ^ 26 * p := by
            refine lt_of_lt_of_le hs (mul_le_mul_of_nonneg_right ?_ hppos.le)
            exact le_trans e1 (by linarith)
          have hrp : 0 < r * p := by positivity
          have e2 : r / 2 ^ 26 * p = (r * p) * (1 / 2 ^ 26) := by ring
          have e3 : r / 100 * p * (1 + 1 / 2 ^ 22) = (r * p) * (1 / 100 * (1 + 1 / 2 ^ 22)) := by ring
          rw [e2] at this
          rw [e3]
          nlinarith
        · have hX := roundMag32_down hs
          rw [e24] at hX
          unfold FVal.round at h
          dsimp only at h
          split at h
          · simp only [FVal.mul, Bool.xor_self] at h
            rw [if_neg (by norm_num), le_inf_fin] at h
            cases h
          · have hXlo : pow2 (-126) ≤ roundMag f32Fmt (D / p) :=
              le_roundMag (by decide) (pow2_pos _).le hs (representable_pow2 (by decide) (by decide))
            generalize roundMag f32Fmt (D / p) = X at *
            have hX0 : 0 < X := lt_of_lt_of_le (pow2_pos _) hXlo
            simp only [FVal.mul, Bool.xor_self] at h
            have hY := roundMag32_down (q := X * 100) (by linarith)
            rw [e24] at hY
            unfold FVal.round at h
            dsimp only at h
            split at h
            · rw [le_inf_fin] at h; cases h
            · rw [le_fin_pos] at h
              -- x (1-u) ≤ D, D/p (1-u) ≤ X, 100 X (1-u) ≤ r
              have a1 : D / p * (1 - 1 / 2 ^ 24) * 100 * (1 - 1 / 2 ^ 24) ≤ r := by nlinarith
              have a2 : D * ((1 - 1 / 2 ^ 24) * 100 * (1 - 1 / 2 ^ 24)) ≤ r * p := by
                have e : D / p * (1 - 1 / 2 ^ 24) * 100 * (1 - 1 / 2 ^ 24) =
                  D * ((1 - 1 / 2 ^ 24) * 100 * (1 - 1 / 2 ^ 24)) / p := by ring
                rw [e, div_le_iff₀ hppos] at a1
                exact a1
              have a3 : x * (1 - 1 / 2 ^ 24) ≤ D := by linarith
              have a4 : x * (1 - 1 / 2 ^ 24) * ((1 - 1 / 2 ^ 24) * 100 * (1 - 1 / 2 ^ 24)) ≤ r * p :=
                le_trans (mul_le_mul_of_nonneg_right a3 (by norm_num)) a2
              have a5 : x * 100 ≤ x * (1 - 1 / 2 ^ 24) * ((1 - 1 / 2 ^ 24) * 100 * (1 - 1 / 2 ^ 24)) * (1 + 1 / 2 ^ 22) := by
                have e : x * (1 - 1 / 2 ^ 24) * ((1 - 1 / 2 ^ 24) * 100 * (1 - 1 / 2 ^ 24)) * (1 + 1 / 2 ^ 22) =
                  x * ((1 - 1 / 2 ^ 24) * ((1 - 1 / 2 ^ 24) * 100 * (1 - 1 / 2 ^ 24)) * (1 + 1 / 2 ^ 22)) := by ring
                rw [e]
                exact mul_le_mul_of_nonneg_left (by norm_num) hx0.le
              have a6 : x * 100 ≤ r * p * (1 + 1 / 2 ^ 22) :=
                le_trans a5 (mul_le_mul_of_nonneg_right a4 (by norm_num))
              have e : r / 100 * p * (1 + 1 / 2 ^ 22) = r * p * (1 + 1 / 2 ^ 22) / 100 := by ring
              rw [e, le_div_iff₀ (by norm_num)]
              exact a6

theorem valid_cases {eb : ErrorBound} (h : ValidErrorBound eb) :
    eb = .lossless ∨ (∃ b, Mag32 b ∧ 0 < b ∧ eb = .absolute (.fin false b)) ∨
    (∃ p, Mag32 p ∧ 0 < p ∧ p ≤ 100 ∧ eb = .relative (.fin false p)) := by
  rcases h with h | ⟨b, hb, h | h⟩
  · exact Or.inl h
  · right; left
    unfold ErrorBound.tryNewAbsolute at h
    split at h
    · cases h
    · rename_i hc
      injection h with h
      cases hv : FVal.ofBits32 b with
      | nan => simp [hv, FVal.isFinite] at hc
      | inf s => simp [hv, FVal.isFinite] at hc
      | fin s q =>
        have hm := mag32_ofBits b hv
        rw [hv] at hc h
        rw [Bool.or_eq_true, le_fin] at hc
        simp [FVal.isFinite, FVal.signed] at hc
        cases s
        · simp at hc
          exact ⟨q, hm, hc, h.symm⟩
        · simp at hc
          have := hm.nonneg
          linarith
  · right; right
    unfold ErrorBound.tryNewRelative at h
    split at h
    · cases h
    · rename_i hc
      injection h with h
      cases hv : FVal.ofBits32 b with
      | nan => simp [hv, FVal.lt] at hc
      | inf s => cases s <;> simp [hv, FVal.lt, FVal.le, FVal.eq] at hc
      | fin s q =>
        have hm := mag32_ofBits b hv
        rw [hv] at hc h
        simp only [Bool.not_eq_true, Bool.not_eq_false', Bool.and_eq_true, le_fin] at hc
        simp [FVal.lt, FVal.signed] at hc
        have hn := hm.nonneg
        cases s
        · simp at hc
          exact ⟨q, hm, hc.1, hc.2, h.symm⟩
        · simp at hc
          linarith

/-- A datum of binary32. -/
def IsF32 : FVal → Prop
  | .fin _ q => Mag32 q
  | _ => True

theorem isF32_ofBits (b : Nat) : IsF32 (FVal.ofBits32 b) := by
  cases h : FVal.ofBits32 b with
  | fin s q => exact mag32_ofBits b h
  | _ => trivial

theorem check_sound (eb : ErrorBound) (hvalid : ValidErrorBound eb)
    (hrel : ∀ s r, eb = .relative (.fin s r) → (2 : ℚ) ^ (-100 : ℤ) ≤ r) {x y : FVal} (hx : IsF32 x)
    (hy : IsF32 y) (h : isValueWithinErrorBound eb x y = true) : WithinExact eb x y := by
  rcases valid_cases hvalid with rfl | ⟨b, hb, hb0, rfl⟩ | ⟨p, hp, hp0, hp100, rfl⟩
  · cases x <;> cases y <;> simp_all [isValueWithinErrorBound, equalOrNan, FVal.eq, FVal.isNan, WithinExact,
      FVal.signed, ratOf]
    exact of_decide_eq_true h
  · cases x with
    | nan => cases y <;> simp_all [isValueWithinErrorBound, equalOrNan, FVal.eq, FVal.isNan, WithinExact,
        FVal.sub, FVal.add, FVal.abs, FVal.le, FVal.lt]
    | inf s =>
      cases y with
      | nan => simp_all [isValueWithinErrorBound, equalOrNan, FVal.eq, FVal.isNan,
          FVal.sub, FVal.add, FVal.neg, FVal.abs, FVal.le, FVal.lt]
      | inf t => cases s <;> cases t <;> simp_all [isValueWithinErrorBound, equalOrNan, FVal.eq, FVal.isNan,
          WithinExact, FVal.sub, FVal.add, FVal.neg, FVal.abs, FVal.le, FVal.lt]
      | fin t q => simp_all [isValueWithinErrorBound, equalOrNan, FVal.eq, FVal.isNan,
          FVal.sub, FVal.add, FVal.neg, FVal.abs, FVal.le, FVal.lt]
    | fin s p =>
      cases y with
      | nan => simp_all [isValueWithinErrorBound, equalOrNan, FVal.eq, FVal.isNan,
          FVal.sub, FVal.add, FVal.neg, FVal.abs, FVal.le, FVal.lt]
      | inf t => simp_all [isValueWithinErrorBound, equalOrNan, FVal.eq, FVal.isNan,
          FVal.sub, FVal.add, FVal.neg, FVal.abs, FVal.le, FVal.lt]
      | fin t q => exact check_absolute_sound hb0 hx hy h
  · cases x with
    | nan => cases y <;> simp_all [isValueWithinErrorBound, equalOrNan, FVal.eq, FVal.isNan, WithinExact,
        FVal.sub, FVal.add, FVal.abs, FVal.le, FVal.lt, FVal.div, FVal.mul]
    | inf s =>
      cases y with
      | nan => simp_all [isValueWithinErrorBound, equalOrNan, FVal.eq, FVal.isNan,
          FVal.sub, FVal.add, FVal.neg, FVal.abs, FVal.le, FVal.lt, FVal.div, FVal.mul]
      | inf t => cases s <;> cases t <;> simp_all [isValueWithinErrorBound, equalOrNan, FVal.eq, FVal.isNan,
          WithinExact, FVal.sub, FVal.add, FVal.neg, FVal.abs, FVal.le, FVal.lt, FVal.div, FVal.mul]
      | fin t q => simp_all [isValueWithinErrorBound, equalOrNan, FVal.eq, FVal.isNan,
          FVal.sub, FVal.add, FVal.neg, FVal.abs, FVal.le, FVal.lt, FVal.div, FVal.mul]
    | fin s q =>
      cases y with
      | nan => simp_all [isValueWithinErrorBound, equalOrNan, FVal.eq, FVal.isNan,
          FVal.sub, FVal.add, FVal.neg, FVal.abs, FVal.le, FVal.lt, FVal.div, FVal.mul]
      | inf t => simp_all [isValueWithinErrorBound, equalOrNan, FVal.eq, FVal.isNan,
          FVal.sub, FVal.add, FVal.neg, FVal.abs, FVal.le, FVal.lt, FVal.div, FVal.mul]
      | fin t q' =>
        refine check_relative_sound ?_ hx hy h
        rw [pow2_eq]; exact hrel _ _ rfl

end ModelarDB.Lemmas
