import Verif.Lemmas.Sum
/-
Sums of binary32 numbers in binary64.
-/
namespace ModelarDB.Lemmas
open Model Spec

/-- Unit roundoff of binary64. -/
def unit64 : ℚ := pow2 (-53)

theorem unit64_pos : 0 < unit64 := pow2_pos _

/-- Rounding a multiple of `2 ^ e` gives a multiple of `2 ^ e` and has a small relative error. -/
theorem roundMag_multiple {fmt : Fmt} {e : Int} (he : fmt.emin ≤ e) {x : ℚ} (n : Int) (hx : x = n * pow2 e) :
    (∃ k : Int, roundMag fmt |x| = k * pow2 e) ∧ |(roundMag fmt |x|) - (|x|)| ≤ |x| * pow2 (-(fmt.prec : Int)) := by
  have hp := pow2_pos e
  have hx' : |x| = (n.natAbs : ℚ) * pow2 e := by
    rw [hx, abs_mul, abs_of_pos hp]
    congr 1
    rw [← Int.cast_abs]
    rw [Int.abs_eq_natAbs]
    simp
  by_cases h0 : x = 0
  · subst h0
    simp only [abs_zero, roundMag_zero, sub_zero, zero_mul]
    exact ⟨⟨0, by simp⟩, le_refl _⟩
  have hpos : 0 < |x| := abs_pos.mpr h0
  rcases lt_or_ge (ilog2 |x| - (fmt.prec - 1)) e with h | h
  · have hlt : |x| < pow2 (e + fmt.prec) := lt_of_lt_of_le (ilog2_spec hpos).2 (pow2_le (by omega))
    have hrep : Representable fmt |x| := by
      refine ⟨n.natAbs, e, ?_, he, hx'⟩
      rw [hx', add_comm, pow2_add, pow2_natCast] at hlt
      have := lt_of_mul_lt_mul_right hlt hp.le
      exact_mod_cast this
    rw [roundMag_exact hrep, sub_self, abs_zero]
    exact ⟨⟨n.natAbs, by rw [hx']; simp⟩, by have := pow2_pos (-(fmt.prec : Int)); positivity⟩
  · refine ⟨?_, roundMag_rel hpos (by omega)⟩
    have hl : lastPlace fmt |x| = ilog2 |x| - (fmt.prec - 1) := max_eq_left (by omega)
    rw [roundMag_of_pos hpos]
    refine ⟨roundEven (|x| / pow2 (lastPlace fmt |x|)) * 2 ^ (lastPlace fmt |x| - e).toNat, ?_⟩
    generalize roundEven (|x| / pow2 (lastPlace fmt |x|)) = k
    have : pow2 (lastPlace fmt |x|) = 2 ^ (lastPlace fmt |x| - e).toNat * pow2 e := by
      have h1 : lastPlace fmt |x| = ((lastPlace fmt |x| - e).toNat : Int) + e := by omega
      conv_lhs => rw [h1]
      rw [pow2_add, pow2_natCast]
    rw [this]
    push_cast
    ring

/-- Rounding an exact result that is a multiple of `2 ^ -149` to binary64. -/
theorem ofRat64 {z : Bool} {x : ℚ} (hx : ∃ n : Int, x = n * pow2 (-149)) (hfin : (FVal.ofRat f64Fmt z x).isFinite = true) :
    ∃ r, Num32 (FVal.ofRat f64Fmt z x) r ∧ |r - x| ≤ |x| * unit64 := by
  obtain ⟨n, hn⟩ := hx
  obtain ⟨⟨k, hk⟩, herr⟩ := roundMag_multiple (fmt := f64Fmt) (e := -149) (by decide) n hn
  change _ ≤ |x| * unit64 at herr
  unfold FVal.ofRat at hfin ⊢
  by_cases h0 : x = 0
  · subst h0
    simp only [if_true] at hfin ⊢
    exact ⟨0, ⟨⟨z, 0, rfl, by cases z <;> simp [ratOf]⟩, 0, by simp⟩, by simp⟩
  · rw [if_neg h0] at hfin ⊢
    by_cases hneg : x < 0
    · rw [if_pos hneg] at hfin ⊢
      rw [abs_of_neg hneg] at herr hk
      by_cases hov : pow2 f64Fmt.emax ≤ roundMag f64Fmt (-x)
      · simp [FVal.round, if_pos hov, FVal.isFinite] at hfin
      · rw [round_of_lt (not_le.mp hov)]
        refine ⟨-roundMag f64Fmt (-x), ⟨⟨true, _, rfl, rfl⟩, -k, by rw [hk]; push_cast; ring⟩, ?_⟩
        rw [abs_of_neg hneg, show -roundMag f64Fmt (-x) - x = -(roundMag f64Fmt (-x) - -x) by ring, abs_neg]
        exact herr
    · rw [if_neg hneg] at hfin ⊢
      rw [abs_of_nonneg (not_lt.mp hneg)] at herr hk
      by_cases hov : pow2 f64Fmt.emax ≤ roundMag f64Fmt x
      · simp [FVal.round, if_pos hov, FVal.isFinite] at hfin
      · rw [round_of_lt (not_le.mp hov)]
        refine ⟨roundMag f64Fmt x, ⟨⟨false, _, rfl, rfl⟩, k, hk⟩, ?_⟩
        rw [abs_of_nonneg (not_lt.mp hneg)]
        exact herr

theorem add64_num {x y : FVal} {p q : ℚ} (hx : Num32 x p) (hy : Num32 y q) (hfin : (FVal.add f64Fmt x y).isFinite = true) :
    ∃ r, Num32 (FVal.add f64Fmt x y) r ∧ |r - (p + q)| ≤ |p + q| * unit64 := by
  obtain ⟨⟨s, m, rfl, rfl⟩, n, hn⟩ := hx
  obtain ⟨⟨t, m', rfl, rfl⟩, n', hn'⟩ := hy
  have : FVal.add f64Fmt (.fin s m) (.fin t m') = FVal.ofRat f64Fmt (s && t) (ratOf s m + ratOf t m') := rfl
  rw [this] at hfin ⊢
  exact ofRat64 ⟨n + n', by rw [hn, hn']; push_cast; ring⟩ hfin

theorem add64_not_finite {x y : FVal} (h : x.isFinite = false ∨ y.isFinite = false) : (FVal.add f64Fmt x y).isFinite = false := by
  cases x <;> cases y <;> simp_all [FVal.isFinite, FVal.add]
  rename_i a b
  cases a <;> cases b <;> rfl

theorem convert64_not_finite {x : FVal} (h : x.isFinite = false) : (FVal.convert f64Fmt x).isFinite = false := by
  cases x <;> simp_all [FVal.isFinite, FVal.convert]

/-- `x` is a number that differs from `P` by at most `(g - 1) * A`. -/
def NearSum (g : ℚ) (x : FVal) (P A : ℚ) : Prop := |P| ≤ A ∧ ∃ r, Num32 x r ∧ |r - P| ≤ (g - 1) * A

theorem NearSum.mono {g h : ℚ} {x : FVal} {P A : ℚ} (hn : NearSum g x P A) (hgh : g ≤ h) : NearSum h x P A := by
  obtain ⟨hP, r, hr, he⟩ := hn
  refine ⟨hP, r, hr, he.trans ?_⟩
  exact mul_le_mul_of_nonneg_right (by linarith) ((abs_nonneg P).trans hP)

theorem near_step {g p P A r : ℚ} (hP : |P| ≤ A) (he : |p - P| ≤ (g - 1) * A) (hr : |r - p| ≤ |p| * unit64) :
    |r - P| ≤ (g * (1 + unit64) - 1) * A := by
  have hu := unit64_pos
  have h1 : |p| ≤ g * A := by
    have := abs_add_le (p - P) P
    rw [sub_add_cancel] at this
    linarith
  have h2 : |r - P| ≤ |r - p| + |p - P| := by
    have := abs_add_le (r - p) (p - P)
    rwa [show r - p + (p - P) = r - P by ring] at this
  have h3 : |p| * unit64 ≤ g * A * unit64 := mul_le_mul_of_nonneg_right h1 hu.le
  linarith

theorem NearSum.add {g : ℚ} {x y : FVal} {P Q A B : ℚ} (hx : NearSum g x P A) (hy : NearSum g y Q B)
    (hfin : (FVal.add f64Fmt x y).isFinite = true) : NearSum (g * (1 + unit64)) (FVal.add f64Fmt x y) (P + Q) (A + B) := by
  obtain ⟨hP, p, hp, ep⟩ := hx
  obtain ⟨hQ, q, hq, eq⟩ := hy
  obtain ⟨r, hr, he⟩ := add64_num hp hq hfin
  have hPQ : |P + Q| ≤ A + B := (abs_add_le P Q).trans (add_le_add hP hQ)
  refine ⟨hPQ, r, hr, near_step hPQ ?_ he⟩
  have := abs_add_le (p - P) (q - Q)
  rw [show p - P + (q - Q) = p + q - (P + Q) by ring] at this
  linarith

theorem NearSum.convert {g : ℚ} {x : FVal} {P A : ℚ} (hx : NearSum g x P A) (hmag : NonnegMag x)
    (hfin : (FVal.convert f64Fmt x).isFinite = true) : NearSum (g * (1 + unit64)) (FVal.convert f64Fmt x) P A := by
  obtain ⟨hP, p, ⟨⟨s, m, rfl, rfl⟩, n, hn⟩, ep⟩ := hx
  have hm : 0 ≤ m := hmag s m rfl
  have habs : |ratOf s m| = m := by cases s <;> simp [ratOf, abs_of_nonneg hm]
  obtain ⟨⟨k, hk⟩, herr⟩ := roundMag_multiple (fmt := f64Fmt) (e := -149) (by decide) n hn
  rw [habs] at hk herr
  change FVal.isFinite (FVal.round f64Fmt s m) = true at hfin
  change NearSum _ (FVal.round f64Fmt s m) _ _
  by_cases hov : pow2 f64Fmt.emax ≤ roundMag f64Fmt m
  · simp [FVal.round, if_pos hov, FVal.isFinite] at hfin
  · rw [round_of_lt (not_le.mp hov)]
    refine ⟨hP, ratOf s (roundMag f64Fmt m), ⟨⟨s, _, rfl, rfl⟩, ?_⟩, near_step hP ep ?_⟩
    · cases s
      · exact ⟨k, hk⟩
      · exact ⟨-k, by simp only [ratOf, if_true]; rw [hk]; push_cast; ring⟩
    · rw [habs]
      cases s
      · exact herr
      · simp only [ratOf, if_true]
        rw [show -roundMag f64Fmt m - -m = -(roundMag f64Fmt m - m) by ring, abs_neg]
        exact herr

theorem ofInt64_exact {n : Nat} (hpos : 0 < n) (hn : n ≤ 2 ^ 53) : FVal.ofInt f64Fmt (n : Int) = .fin false n := by
  have hq : (0 : ℚ) < n := by exact_mod_cast hpos
  have hrep : Representable f64Fmt (n : ℚ) := by
    rcases Nat.lt_or_ge n (2 ^ 53) with h | h
    · exact ⟨n, 0, h, by decide, by rw [pow2_zero, mul_one]⟩
    · have : n = 2 ^ 53 := by omega
      subst this
      exact ⟨1, 53, by decide, by decide, by rw [pow2_eq]; norm_num⟩
  unfold FVal.ofInt FVal.ofRat
  rw [Int.cast_natCast, if_neg hq.ne', if_neg (not_lt.mpr hq.le), round_of_lt, roundMag_exact hrep]
  rw [roundMag_exact hrep]
  calc (n : ℚ) ≤ 2 ^ 53 := by exact_mod_cast hn
    _ = pow2 53 := by rw [pow2_eq]; norm_num
    _ < _ := pow2_lt (by decide)

/-- Dividing a sum by the number of rows. -/
theorem div64_near {x : FVal} {r : ℚ} {n : Nat} (hx : Num32 x r) (hmag : NonnegMag x) (hpos : 0 < n) (hn : n ≤ 2 ^ 53)
    (hfin : (FVal.div f64Fmt x (.fin false n)).isFinite = true) :
    ∃ s q, FVal.div f64Fmt x (.fin false n) = .fin s q ∧ |ratOf s q - r / n| ≤ |r / n| * unit64 := by
  obtain ⟨⟨s, m, rfl, rfl⟩, k, hk⟩ := hx
  have hm : 0 ≤ m := hmag s m rfl
  have hq : (0 : ℚ) < n := by exact_mod_cast hpos
  have hdiv : FVal.div f64Fmt (.fin s m) (.fin false n) = FVal.round f64Fmt s (m / n) := by
    simp only [FVal.div]
    rw [if_neg hq.ne']
    cases s <;> rfl
  rw [hdiv] at hfin ⊢
  by_cases hov : pow2 f64Fmt.emax ≤ roundMag f64Fmt (m / n)
  · simp [FVal.round, if_pos hov, FVal.isFinite] at hfin
  rw [round_of_lt (not_le.mp hov)]
  refine ⟨s, _, rfl, ?_⟩
  have habs : |ratOf s m / n| = m / n := by
    rw [_root_.abs_div, abs_of_pos hq]
    cases s <;> simp [ratOf, abs_of_nonneg hm]
  have herr : |roundMag f64Fmt (m / n) - m / n| ≤ m / n * unit64 := by
    rcases hm.eq_or_lt with h0 | hmpos
    · rw [← h0, zero_div, roundMag_zero]; simp
    · have hd : 0 < m / n := div_pos hmpos hq
      refine roundMag_rel hd ?_
      have hml : pow2 (-149) ≤ m := by
        have hk' : |ratOf s m| = m := by cases s <;> simp [ratOf, abs_of_nonneg hm]
        rw [hk, abs_mul, abs_of_pos (pow2_pos _)] at hk'
        have hk0 : k ≠ 0 := by
          rintro rfl
          simp at hk'
          exact hmpos.ne hk'
        have h1 : (1 : ℚ) ≤ |(k : ℚ)| := by
          rw [← Int.cast_abs]
          exact_mod_cast Int.one_le_abs hk0
        have := mul_le_mul_of_nonneg_right h1 (pow2_pos (-149)).le
        rw [one_mul, hk'] at this
        exact this
      have hlow : pow2 (-202) ≤ m / n := by
        rw [le_div_iff₀ hq]
        have h1 : pow2 (-202) * n ≤ pow2 (-202) * 2 ^ 53 :=
          mul_le_mul_of_nonneg_left (by exact_mod_cast hn) (pow2_pos _).le
        have h2 : pow2 (-202) * 2 ^ 53 = pow2 (-149) := by
          rw [show (-149 : Int) = -202 + ((53 : Nat) : Int) by norm_num, pow2_add, pow2_natCast]
        linarith
      have : (-202 : Int) < ilog2 (m / n) + 1 := pow2_lt_iff.mp (lt_of_le_of_lt hlow (ilog2_spec hd).2)
      have e1 : f64Fmt.emin = -1074 := rfl
      have e2 : f64Fmt.prec = 53 := rfl
      rw [e1, e2]
      omega
  rw [habs]
  cases s
  · exact herr
  · simp only [ratOf, if_true]
    rw [show -roundMag f64Fmt (m / n) - -m / n = -(roundMag f64Fmt (m / n) - m / n) by ring, abs_neg]
    exact herr

end ModelarDB.Lemmas
