import Verif.Lemmas.Deviation
/-
Rounding errors of binary64 arithmetic and of the conversion to binary32.
-/
namespace ModelarDB.Lemmas
open Model Spec

/-- Half of the smallest positive binary64 number. -/
def tiny : ℚ := pow2 (-1075)

theorem tiny_pos : 0 < tiny := pow2_pos _

theorem tiny_le {M : ℚ} (h : pow2 (-126) ≤ M) : tiny * 2 ^ 250 ≤ M := by
  refine le_trans ?_ h
  have e : (2 : ℚ) ^ 250 = pow2 250 := by rw [pow2_eq]; norm_num
  rw [e, tiny, ← pow2_add]
  exact pow2_le (by decide)

theorem roundMag_bound {fmt : Fmt} {q : ℚ} (hq : 0 ≤ q) :
    |roundMag fmt q - q| ≤ q * pow2 (-(fmt.prec : Int)) + pow2 (fmt.emin - 1) := by
  rcases hq.lt_or_eq with hq | rfl
  · by_cases hn : fmt.emin ≤ ilog2 q - (fmt.prec - 1)
    · have := roundMag_rel hq hn
      have := pow2_pos (fmt.emin - 1)
      linarith
    · have h1 := roundMag_error (fmt := fmt) hq
      have h2 : lastPlace fmt q = fmt.emin := by
        unfold lastPlace; exact max_eq_right (by omega)
      rw [h2, show fmt.emin = fmt.emin - 1 + 1 by ring, pow2_succ] at h1
      have := mul_nonneg hq.le (pow2_pos (-(fmt.prec : Int))).le
      linarith
  · rw [roundMag_zero]
    have := pow2_pos (fmt.emin - 1)
    simpa using this.le

theorem round64 (s : Bool) {q : ℚ} (hq : 0 ≤ q) (hlt : q ≤ 2 ^ 250) :
    ∃ m, FVal.round f64Fmt s q = .fin s m ∧ |m - q| ≤ q * (1 / 2 ^ 53) + tiny := by
  have h := roundMag_bound (fmt := f64Fmt) hq
  have e1 : pow2 (-(f64Fmt.prec : Int)) = 1 / 2 ^ 53 := by rw [pow2_eq]; norm_num [f64Fmt]
  have e2 : pow2 (f64Fmt.emin - 1) = tiny := rfl
  rw [e1, e2] at h
  refine ⟨roundMag f64Fmt q, round_of_lt ?_, h⟩
  have hr : roundMag f64Fmt q ≤ pow2 250 := by
    refine roundMag_le (by decide) hq ?_ (representable_pow2 (by decide) (by decide))
    rw [pow2_eq]
    exact_mod_cast hlt
  exact lt_of_le_of_lt hr (pow2_lt (by decide))

theorem ratOf_abs {s : Bool} {m : ℚ} (hm : 0 ≤ m) : |ratOf s m| = m := by
  cases s <;> simp [ratOf, abs_of_nonneg hm]

theorem ratOf_neg (s : Bool) (m : ℚ) : ratOf (!s) m = -ratOf s m := by cases s <;> simp [ratOf]

theorem ratOf_sub (s : Bool) (m q : ℚ) : |ratOf s m - ratOf s q| = |m - q| := by
  cases s
  · rfl
  · simp only [ratOf, if_true]
    rw [show -m - -q = -(m - q) by ring, abs_neg]

theorem round64_is (s : Bool) {q : ℚ} (hq : 0 ≤ q) (hlt : q ≤ 2 ^ 250) :
    Near (FVal.round f64Fmt s q) (ratOf s q) (q * (1 / 2 ^ 53) + tiny) := by
  obtain ⟨m, h1, h2⟩ := round64 s hq hlt
  exact ⟨ratOf s m, ⟨s, m, h1, rfl⟩, by rw [ratOf_sub]; exact h2⟩

theorem ofRat64_is (s : Bool) {q : ℚ} (hlt : |q| ≤ 2 ^ 250) :
    Near (FVal.ofRat f64Fmt s q) q (|q| * (1 / 2 ^ 53) + tiny) := by
  unfold FVal.ofRat
  by_cases h0 : q = 0
  · subst h0
    simp only [if_true]
    exact ⟨0, ⟨s, 0, rfl, by cases s <;> simp [ratOf]⟩, by simpa using tiny_pos.le⟩
  · rw [if_neg h0]
    by_cases h1 : q < 0
    · rw [if_pos h1]
      rw [abs_of_neg h1] at hlt ⊢
      have := round64_is true (by linarith : 0 ≤ -q) hlt
      simpa [ratOf] using this
    · rw [if_neg h1]
      have h1 := not_lt.mp h1
      rw [abs_of_nonneg h1] at hlt ⊢
      exact round64_is false h1 hlt

theorem Near.mono {x : FVal} {q e e' : ℚ} (h : Near x q e) (he : e ≤ e') : Near x q e' := by
  obtain ⟨r, h1, h2⟩ := h
  exact ⟨r, h1, le_trans h2 he⟩

theorem is_neg {x : FVal} {q : ℚ} (h : Is x q) : Is x.neg (-q) := by
  obtain ⟨s, m, rfl, rfl⟩ := h
  exact ⟨!s, m, rfl, ratOf_neg s m⟩

theorem near_neg {x : FVal} {q e : ℚ} (h : Near x q e) : Near x.neg (-q) e := by
  obtain ⟨r, h1, h2⟩ := h
  exact ⟨-r, is_neg h1, by rw [show -r - -q = -(r - q) by ring, abs_neg]; exact h2⟩

theorem add64 {x y : FVal} {p q e₁ e₂ B : ℚ} (hx : Near x p e₁) (hy : Near y q e₂) (hB : |p| + |q| + e₁ + e₂ ≤ B)
    (hlt : B ≤ 2 ^ 250) : Near (FVal.add f64Fmt x y) (p + q) (e₁ + e₂ + B * (1 / 2 ^ 53) + tiny) := by
  obtain ⟨r, ⟨s, m, rfl, rfl⟩, h1⟩ := hx
  obtain ⟨r', ⟨t, n, rfl, rfl⟩, h2⟩ := hy
  have h3 : |ratOf s m + ratOf t n| ≤ B := by
    have a := abs_le.mp h1
    have b := abs_le.mp h2
    have c := abs_le.mp (le_refl |p|)
    have d := abs_le.mp (le_refl |q|)
    exact abs_le.mpr ⟨by linarith, by linarith⟩
  obtain ⟨r, hr, he⟩ := ofRat64_is (s && t) (q := ratOf s m + ratOf t n) (le_trans h3 hlt)
  refine ⟨r, hr, ?_⟩
  have a := abs_le.mp h1
  have b := abs_le.mp h2
  have c := abs_le.mp he
  exact abs_le.mpr ⟨by linarith, by linarith⟩

theorem sub64 {x y : FVal} {p q e₁ e₂ B : ℚ} (hx : Near x p e₁) (hy : Near y q e₂) (hB : |p| + |q| + e₁ + e₂ ≤ B)
    (hlt : B ≤ 2 ^ 250) : Near (FVal.sub f64Fmt x y) (p - q) (e₁ + e₂ + B * (1 / 2 ^ 53) + tiny) := by
  rw [sub_eq_add_neg]
  exact add64 hx (near_neg hy) (by rwa [abs_neg]) hlt

theorem is_round_mul {s t : Bool} {m n : ℚ} : ratOf (s ^^ t) (|m * n|) = ratOf s |m| * ratOf t |n| := by
  rw [abs_mul]
  cases s <;> cases t <;> simp [ratOf]

/-- A datum with a magnitude that is not negative. -/
def Ok (x : FVal) : Prop := match x with
  | .fin _ m => 0 ≤ m
  | _ => True

theorem ok_ofBits (b : Nat) : Ok (FVal.ofBits32 b) := by
  cases h : FVal.ofBits32 b with
  | fin s q => exact (mag32_ofBits b h).nonneg
  | nan => trivial
  | inf _ => trivial

theorem ok_round {fmt : Fmt} {s : Bool} {q : ℚ} (hq : 0 ≤ q) : Ok (FVal.round fmt s q) := by
  unfold FVal.round
  dsimp only
  split
  · trivial
  · exact roundMag_nonneg hq

theorem ok_ofRat {fmt : Fmt} {s : Bool} {q : ℚ} : Ok (FVal.ofRat fmt s q) := by
  unfold FVal.ofRat
  split
  · exact le_rfl
  · split
    · exact ok_round (by linarith)
    · exact ok_round (by linarith)

theorem ok_add {fmt : Fmt} {x y : FVal} : Ok (FVal.add fmt x y) := by
  cases x <;> cases y <;> simp only [FVal.add] <;> try trivial
  · split <;> trivial
  · exact ok_ofRat

theorem ok_div {fmt : Fmt} {x y : FVal} (hx : Ok x) (hy : Ok y) : Ok (FVal.div fmt x y) := by
  cases x <;> cases y <;> simp only [FVal.div] <;> try trivial
  split
  · split <;> trivial
  · exact ok_round (div_nonneg hx hy)

theorem mul64 {x y : FVal} {p q e₁ e₂ P Q B : ℚ} (ox : Ok x) (oy : Ok y) (hx : Near x p e₁) (hy : Near y q e₂)
    (hp : |p| ≤ P) (hq : |q| ≤ Q) (hB : (P + e₁) * (Q + e₂) ≤ B)
    (hlt : B ≤ 2 ^ 250) : Near (FVal.mul f64Fmt x y) (p * q) (e₁ * Q + e₂ * P + e₁ * e₂ + B * (1 / 2 ^ 53) + tiny) := by
  obtain ⟨r, ⟨s, m, rfl, rfl⟩, h1⟩ := hx
  obtain ⟨r', ⟨t, n, rfl, rfl⟩, h2⟩ := hy
  have he1 : 0 ≤ e₁ := le_trans (abs_nonneg _) h1
  have he2 : 0 ≤ e₂ := le_trans (abs_nonneg _) h2
  have hP : 0 ≤ P := le_trans (abs_nonneg _) hp
  have hQ : 0 ≤ Q := le_trans (abs_nonneg _) hq
  have hm : m ≤ P + e₁ := by
    have a : |ratOf s m| ≤ |ratOf s m - p| + |p| := by
      have := abs_add_le (ratOf s m - p) p
      rwa [sub_add_cancel] at this
    rw [ratOf_abs ox] at a
    linarith
  have hn : n ≤ Q + e₂ := by
    have a : |ratOf t n| ≤ |ratOf t n - q| + |q| := by
      have := abs_add_le (ratOf t n - q) q
      rwa [sub_add_cancel] at this
    rw [ratOf_abs oy] at a
    linarith
  have hmn : m * n ≤ B := le_trans (mul_le_mul hm hn oy (by linarith)) hB
  have hmn0 : 0 ≤ m * n := mul_nonneg ox oy
  obtain ⟨r, hr, he⟩ := round64_is (s ^^ t) hmn0 (le_trans hmn hlt)
  refine ⟨r, hr, ?_⟩
  have hprod : ratOf (s ^^ t) (m * n) = ratOf s m * ratOf t n := by cases s <;> cases t <;> simp [ratOf]
  rw [hprod] at he
  have hsplit : ratOf s m * ratOf t n - p * q =
      (ratOf s m - p) * q + (ratOf t n - q) * p + (ratOf s m - p) * (ratOf t n - q) := by ring
  have h3 : |ratOf s m * ratOf t n - p * q| ≤ e₁ * Q + e₂ * P + e₁ * e₂ := by
    rw [hsplit]
    refine le_trans (abs_add_three _ _ _) ?_
    rw [abs_mul, abs_mul, abs_mul]
    have a := mul_le_mul h1 hq (abs_nonneg _) he1
    have b := mul_le_mul h2 hp (abs_nonneg _) he2
    have c := mul_le_mul h1 h2 (abs_nonneg _) he1
    linarith
  have a := abs_le.mp h3
  have c := abs_le.mp he
  exact abs_le.mpr ⟨by linarith, by linarith⟩

theorem ok_ofInt (n : Int) : Ok (FVal.ofInt f64Fmt n) := ok_ofRat

theorem ofInt64 {n : Int} (h : |(n : ℚ)| ≤ 2 ^ 64) : Near (FVal.ofInt f64Fmt n) n (|(n : ℚ)| * (1 / 2 ^ 52)) := by
  have h1 := ofRat64_is false (q := (n : ℚ)) (le_trans h (by norm_num))
  by_cases h0 : n = 0
  · subst h0
    refine ⟨0, ⟨false, 0, by simp [FVal.ofInt, FVal.ofRat], by simp [ratOf]⟩, by simp⟩
  · refine Near.mono h1 ?_
    have h2 : (1 : ℚ) ≤ |(n : ℚ)| := by
      rw [← Int.cast_abs]
      exact_mod_cast Int.one_le_abs h0
    have h3 : tiny ≤ 1 / 2 ^ 53 := by
      have : (1 : ℚ) / 2 ^ 53 = pow2 (-53) := by rw [pow2_eq]; norm_num
      rw [this]
      unfold tiny
      exact pow2_le (by decide)
    linarith

/-- Division by a positive integer. -/
theorem div64 {x : FVal} {p : ℚ} (ox : Ok x) (hx : Is x p) {D : Int} (h0 : 0 < D) (h1 : D < 2 ^ 63) (hlt : |p| ≤ 2 ^ 240) :
    ∃ σ, Is (FVal.div f64Fmt x (FVal.ofInt f64Fmt D)) σ ∧ |σ * D - p| ≤ |p| * (1 / 2 ^ 50) + tiny * 2 ^ 63 := by
  obtain ⟨s, m, rfl, rfl⟩ := hx
  have hm : 0 ≤ m := ox
  rw [ratOf_abs hm] at hlt ⊢
  obtain ⟨d, hd, hdpos⟩ := ofInt64_pos h0 h1
  have hD1 : (1 : ℚ) ≤ D := by exact_mod_cast h0
  have hD2 : (D : ℚ) ≤ 2 ^ 63 := by exact_mod_cast h1.le
  obtain ⟨r, hr, he⟩ := ofInt64 (n := D) (by rw [abs_of_nonneg (by linarith)]; linarith [show (2 : ℚ) ^ 63 ≤ 2 ^ 64 by norm_num])
  have hrd : r = d := by
    rw [hd] at hr
    exact is_unique hr ⟨false, d, rfl, rfl⟩
  subst hrd
  rw [abs_of_nonneg (by linarith : (0 : ℚ) ≤ D)] at he
  rw [hd]
  simp only [FVal.div, if_neg hdpos.ne', Bool.xor_false]
  have ha := abs_le.mp he
  have hr1 : (1 : ℚ) / 2 ≤ r := by
    linarith
  have hq : m / r ≤ 2 ^ 250 := by
    rw [div_le_iff₀ hdpos]
    have : (2 : ℚ) ^ 240 ≤ 2 ^ 250 * (1 / 2) := by norm_num
    have : (2 : ℚ) ^ 250 * (1 / 2) ≤ 2 ^ 250 * r := mul_le_mul_of_nonneg_left hr1 (by positivity)
    linarith
  obtain ⟨m', h2, h3⟩ := round64 s (div_nonneg hm hdpos.le) hq
  refine ⟨ratOf s m', ⟨s, m', h2, rfl⟩, ?_⟩
  have e1 : ratOf s m' * D - ratOf s m = ratOf s (m' * D - m) := by cases s <;> simp [ratOf]; ring
  have e2 : |ratOf s (m' * D - m)| = |m' * D - m| := by cases s <;> simp only [ratOf, if_true, abs_neg] ; rfl
  rw [e1, e2]
  -- the quotient times the divisor
  have h4 : |m / r * D - m| ≤ m * (1 / 2 ^ 51) := by
    have e3 : m / r * D - m = m * ((D - r) / r) := by
      have := hdpos.ne'
      field_simp
    rw [e3, abs_mul, abs_of_nonneg hm]
    refine mul_le_mul_of_nonneg_left ?_ hm
    rw [_root_.abs_div, abs_of_pos hdpos, div_le_iff₀ hdpos, abs_le]
    constructor <;> linarith
  have h5 : m / r * D ≤ m * (1 + 1 / 2 ^ 51) := by
    have := (abs_le.mp h4).2
    linarith
  have h6 : |m' * D - m / r * D| ≤ m * (1 + 1 / 2 ^ 51) * (1 / 2 ^ 53) + tiny * 2 ^ 63 := by
    have e4 : m' * D - m / r * D = (m' - m / r) * D := by ring
    rw [e4, abs_mul, abs_of_nonneg (by linarith : (0 : ℚ) ≤ D)]
    have a := mul_le_mul_of_nonneg_right h3 (by linarith : (0 : ℚ) ≤ D)
    have b : tiny * D ≤ tiny * 2 ^ 63 := mul_le_mul_of_nonneg_left hD2 tiny_pos.le
    have c : (m / r * (1 / 2 ^ 53) + tiny) * D = m / r * D * (1 / 2 ^ 53) + tiny * D := by ring
    have d : m / r * D * (1 / 2 ^ 53) ≤ m * (1 + 1 / 2 ^ 51) * (1 / 2 ^ 53) := mul_le_mul_of_nonneg_right h5 (by norm_num)
    linarith
  have a := abs_le.mp h4
  have b := abs_le.mp h6
  exact abs_le.mpr ⟨by linarith, by linarith⟩

/-- Conversion to binary32. -/
theorem convert32 {x : FVal} {p e : ℚ} (ox : Ok x) (hx : Near x p e) {B : ℚ} (hB : |p| + e ≤ B) (hlt : B ≤ 2 ^ 127) :
    Near (FVal.convert f32Fmt x) p (e + B * (1 / 2 ^ 24) + pow2 (-150)) ∧ Ok (FVal.convert f32Fmt x) := by
  obtain ⟨r, ⟨s, m, rfl, rfl⟩, h1⟩ := hx
  have hm : 0 ≤ m := ox
  have hmB : m ≤ B := by
    have a : |ratOf s m| ≤ |ratOf s m - p| + |p| := by
      have := abs_add_le (ratOf s m - p) p
      rwa [sub_add_cancel] at this
    rw [ratOf_abs hm] at a
    linarith
  have h := roundMag_bound (fmt := f32Fmt) hm
  have e1 : pow2 (-(f32Fmt.prec : Int)) = 1 / 2 ^ 24 := by rw [pow2_eq]; norm_num [f32Fmt]
  have e2 : pow2 (f32Fmt.emin - 1) = pow2 (-150) := rfl
  rw [e1, e2] at h
  have hr : roundMag f32Fmt m ≤ pow2 127 := by
    refine roundMag_le (by decide) hm ?_ (representable_pow2 (by decide) (by decide))
    rw [pow2_eq]
    have : m ≤ 2 ^ 127 := le_trans hmB hlt
    exact_mod_cast this
  refine ⟨⟨ratOf s (roundMag f32Fmt m), ⟨s, _, ?_, rfl⟩, ?_⟩, ok_round hm⟩
  · simp only [FVal.convert]
    exact round_of_lt (lt_of_le_of_lt hr (pow2_lt (by decide)))
  · have h2 : |ratOf s (roundMag f32Fmt m) - ratOf s m| ≤ B * (1 / 2 ^ 24) + pow2 (-150) := by
      rw [ratOf_sub]
      refine le_trans h ?_
      have := mul_le_mul_of_nonneg_right hmB (by norm_num : (0 : ℚ) ≤ 1 / 2 ^ 24)
      linarith
    have a := abs_le.mp h1
    have b := abs_le.mp h2
    exact abs_le.mpr ⟨by linarith, by linarith⟩

end ModelarDB.Lemmas
