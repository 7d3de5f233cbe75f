import Verif.Lemmas.SwingRounding
import Verif.Lemmas.Sum
/-
The sum of a linear model with the rounding of binary64 and binary32, for C12.
-/
namespace ModelarDB.Lemmas
open Model Spec

/-- The line through two points. -/
def lineThrough (t0 tl : Int) (p q : ℚ) (t : Int) : ℚ := p + (q - p) * (((t : ℚ) - t0) / ((tl : ℚ) - t0))

theorem lineThrough_abs {t0 tl t : Int} {p q M : ℚ} (hp : |p| ≤ M) (hq : |q| ≤ M) (hlt : t0 < tl) (h1 : t0 ≤ t) (h2 : t ≤ tl) :
    |lineThrough t0 tl p q t| ≤ M := by
  have hD : (0 : ℚ) < (tl : ℚ) - t0 := by
    have : (t0 : ℚ) < tl := by exact_mod_cast hlt
    linarith
  have c1 : (t0 : ℚ) ≤ t := by exact_mod_cast h1
  have c2 : (t : ℚ) ≤ tl := by exact_mod_cast h2
  have hx0 : 0 ≤ ((t : ℚ) - t0) / ((tl : ℚ) - t0) := div_nonneg (by linarith) hD.le
  have hx1 : ((t : ℚ) - t0) / ((tl : ℚ) - t0) ≤ 1 := by rw [div_le_one hD]; linarith
  unfold lineThrough
  generalize ((t : ℚ) - t0) / ((tl : ℚ) - t0) = x at hx0 hx1
  have a := abs_le.mp hp
  have b := abs_le.mp hq
  rw [show p + (q - p) * x = p * (1 - x) + q * x by ring]
  have h3 : p * (1 - x) ≤ M * (1 - x) := mul_le_mul_of_nonneg_right a.2 (by linarith)
  have h4 : q * x ≤ M * x := mul_le_mul_of_nonneg_right b.2 hx0
  have h5 : -M * (1 - x) ≤ p * (1 - x) := mul_le_mul_of_nonneg_right a.1 (by linarith)
  have h6 : -M * x ≤ q * x := mul_le_mul_of_nonneg_right b.1 hx0
  exact abs_le.mpr ⟨by linarith, by linarith⟩

/-- A line through two points is evaluated with a small error. -/
theorem near_line {first last : FVal} {p q M T X : ℚ} {t0 tl t : Int} (hp : Is first p) (hq : Is last q) (of : Ok first)
    (h0 : |p| ≤ M) (h1 : |q| ≤ M) (hM : pow2 (-126) ≤ M) (hbigM : M ≤ 2 ^ 120) (hlt : t0 < tl) (hspan : tl - t0 < 2 ^ 63)
    (ht0 : |(t0 : ℚ)| ≤ T) (ht : |(t : ℚ)| ≤ T) (hT : T ≤ 2 ^ 64) (hX : M * T / ((tl : ℚ) - t0) ≤ X) (hb : t0 ≤ t) (ha : t ≤ tl) :
    Near (lineAt f64Ops (computeSlopeAndIntercept f64Ops t0 first tl last).1 (computeSlopeAndIntercept f64Ops t0 first tl last).2 t)
      (lineThrough t0 tl p q t) (X * (1 / 2 ^ 47) + M * (1 / 2 ^ 47)) := by
  have hM0 : 0 ≤ M := le_trans (abs_nonneg _) h0
  have hT0 : 0 ≤ T := le_trans (abs_nonneg _) ht0
  have hD1 : (1 : ℚ) ≤ (tl : ℚ) - t0 := by
    have : t0 + 1 ≤ tl := hlt
    have : ((t0 + 1 : Int) : ℚ) ≤ tl := by exact_mod_cast this
    push_cast at this
    linarith
  have hD0 : (0 : ℚ) < (tl : ℚ) - t0 := by linarith
  obtain ⟨σ, s1, s2, s3, s4⟩ := line64 (w := last) (q := q) (e := 0) (M := M) hp (near_of_is hq) h0 (by linarith) (by positivity) hM
    (by linarith) hlt hspan
  have hσ : |σ| ≤ 3 * M / ((tl : ℚ) - t0) := by
    have e : |σ| * ((tl : ℚ) - t0) = |σ * ((tl : ℚ) - t0)| := by rw [abs_mul, abs_of_pos hD0]
    rw [le_div_iff₀ hD0, e]
    have a := abs_le.mp s4
    have b := abs_le.mp h0
    have c := abs_le.mp h1
    exact abs_le.mpr ⟨by linarith, by linarith⟩
  have hgT : 3 * M / ((tl : ℚ) - t0) * T = 3 * (M * T / ((tl : ℚ) - t0)) := by ring
  have hY0 : 0 ≤ M * T / ((tl : ℚ) - t0) := div_nonneg (mul_nonneg hM0 hT0) hD0.le
  have hY1 : M * T / ((tl : ℚ) - t0) ≤ M * 2 ^ 64 := by
    rw [div_le_iff₀ hD0]
    have c1 : M * T ≤ M * 2 ^ 64 := mul_le_mul_of_nonneg_left hT hM0
    have c2 : M * 2 ^ 64 * 1 ≤ M * 2 ^ 64 * ((tl : ℚ) - t0) := mul_le_mul_of_nonneg_left hD1 (mul_nonneg hM0 (by norm_num))
    linarith
  have hline := near_lineAt (t := t) (t0 := t0) s2 of s1 hp s3 hσ h0 hM ht0 ht hT (by rw [hgT]; linarith)
  rw [hgT] at hline
  obtain ⟨r, hr, her⟩ := hline
  refine ⟨r, hr, ?_⟩
  have hdiff : |p + σ * ((t : ℚ) - t0) - lineThrough t0 tl p q t| ≤ M * (1 / 2 ^ 48) := by
    have c1 : (t0 : ℚ) ≤ t := by exact_mod_cast hb
    have c2 : (t : ℚ) ≤ tl := by exact_mod_cast ha
    have hx0 : 0 ≤ ((t : ℚ) - t0) / ((tl : ℚ) - t0) := div_nonneg (by linarith) hD0.le
    have hx1 : ((t : ℚ) - t0) / ((tl : ℚ) - t0) ≤ 1 := by rw [div_le_one hD0]; linarith
    have e : p + σ * ((t : ℚ) - t0) - lineThrough t0 tl p q t =
        (p + σ * ((tl : ℚ) - t0) - q) * (((t : ℚ) - t0) / ((tl : ℚ) - t0)) := by
      unfold lineThrough
      field_simp
      ring
    rw [e, abs_mul, abs_of_nonneg hx0]
    calc _ ≤ |p + σ * ((tl : ℚ) - t0) - q| * 1 := mul_le_mul_of_nonneg_left hx1 (abs_nonneg _)
      _ ≤ _ := by rw [mul_one]; exact s4
  have a := abs_le.mp her
  have b := abs_le.mp hdiff
  exact abs_le.mpr ⟨by linarith, by linarith⟩

theorem pow150_le {M : ℚ} (hM : pow2 (-126) ≤ M) : pow2 (-150) ≤ M * (1 / 2 ^ 24) := by
  have : pow2 (-150) = pow2 (-126) * (1 / 2 ^ 24) := by
    rw [show (-150 : Int) = -126 + -24 from rfl, pow2_add, show pow2 (-24) = 1 / 2 ^ 24 by rw [pow2_eq]; norm_num]
  rw [this]
  exact mul_le_mul_of_nonneg_right hM (by norm_num)

/-- A value that is read. -/
theorem near_read {first last : FVal} {p q M T X : ℚ} {t0 tl t : Int} (hp : Is first p) (hq : Is last q) (of : Ok first)
    (h0 : |p| ≤ M) (h1 : |q| ≤ M) (hM : pow2 (-126) ≤ M) (hbigM : M ≤ 2 ^ 120) (hbigX : X ≤ 2 ^ 120) (hlt : t0 < tl) (hspan : tl - t0 < 2 ^ 63)
    (ht0 : |(t0 : ℚ)| ≤ T) (ht : |(t : ℚ)| ≤ T) (hT : T ≤ 2 ^ 64) (hX : M * T / ((tl : ℚ) - t0) ≤ X) (hb : t0 ≤ t) (ha : t ≤ tl) :
    |valueOf (f64Ops.toValue (lineAt f64Ops (computeSlopeAndIntercept f64Ops t0 first tl last).1
      (computeSlopeAndIntercept f64Ops t0 first tl last).2 t)) - lineThrough t0 tl p q t| ≤ X * (1 / 2 ^ 46) + M * (1 / 2 ^ 22) := by
  have h := near_line hp hq of h0 h1 hM hbigM hlt hspan ht0 ht hT hX hb ha
  have hl := lineThrough_abs h0 h1 hlt hb ha
  have h150 := pow150_le hM
  have hM0 : 0 ≤ M := le_trans (abs_nonneg _) h0
  have hX0 : 0 ≤ X := by
    refine le_trans ?_ hX
    have hT0 : 0 ≤ T := le_trans (abs_nonneg _) ht0
    have : (t0 : ℚ) < tl := by exact_mod_cast hlt
    exact div_nonneg (mul_nonneg hM0 hT0) (by linarith)
  have ok : Ok (lineAt f64Ops (computeSlopeAndIntercept f64Ops t0 first tl last).1 (computeSlopeAndIntercept f64Ops t0 first tl last).2 t) := by
    unfold lineAt; exact ok_add
  obtain ⟨⟨r, ⟨s, m, hr, hrm⟩, her⟩, _⟩ := convert32 ok h (B := M + (X * (1 / 2 ^ 47) + M * (1 / 2 ^ 47))) (by linarith) (by linarith)
  have : valueOf (f64Ops.toValue (lineAt f64Ops (computeSlopeAndIntercept f64Ops t0 first tl last).1
      (computeSlopeAndIntercept f64Ops t0 first tl last).2 t)) = r := by
    show valueOf (FVal.convert f32Fmt _) = r
    rw [hr]; exact hrm
  rw [this]
  refine her.trans ?_
  linarith

theorem sum_near (f g : Int → ℚ) (e : ℚ) (ts : List Int) (h : ∀ t ∈ ts, |f t - g t| ≤ e) : |(ts.map f).sum - (ts.map g).sum| ≤ ts.length * e := by
  induction ts with
  | nil => simp
  | cons t ts ih =>
    have a := abs_le.mp (h t (by simp))
    have b := abs_le.mp (ih fun t' ht' => h t' (by simp [ht']))
    simp only [List.map_cons, List.sum_cons, List.length_cons]
    push_cast
    exact abs_le.mpr ⟨by linarith, by linarith⟩

theorem ok_mul {fmt : Fmt} {x y : FVal} (hx : Ok x) (hy : Ok y) : Ok (FVal.mul fmt x y) := by
  unfold FVal.mul
  split <;> first | exact trivial | (split <;> exact trivial) | exact ok_round (mul_nonneg hx hy)

/-- Half of a sum. -/
theorem half64 {x : FVal} {p e B : ℚ} (ox : Ok x) (hx : Near x p e) (hB : |p| + e ≤ B) (hlt : B ≤ 2 ^ 240) :
    Near (FVal.div f64Fmt x (.fin false 2)) (p / 2) (e / 2 + B * (1 / 2 ^ 51) + tiny * 2 ^ 62) := by
  obtain ⟨r, hr, her⟩ := hx
  have h2 : FVal.ofInt f64Fmt 2 = .fin false 2 := by decide +kernel
  have hrB : |r| ≤ B := by
    have a := abs_le.mp her
    have b := abs_le.mp (le_refl |p|)
    exact abs_le.mpr ⟨by linarith, by linarith⟩
  obtain ⟨σ, h3, h4⟩ := div64 (D := 2) ox hr (by decide) (by decide) (le_trans hrB hlt)
  rw [h2] at h3
  refine ⟨σ, h3, ?_⟩
  push_cast at h4
  have a := abs_le.mp her
  have b := abs_le.mp h4
  exact abs_le.mpr ⟨by linarith, by linarith⟩

/-- The sum for regular timestamps. -/
theorem near_regular {x y : FVal} {p q M E : ℚ} {n : Nat} (hx : Near x p E) (hy : Near y q E)
    (h0 : |p| ≤ M) (h1 : |q| ≤ M) (hM : pow2 (-126) ≤ M) (hn : 0 < n) (hn' : n ≤ 2 ^ 24) (hbig : (n : ℚ) * (M + E) ≤ 2 ^ 125) :
    Near (f64Ops.toValue (f64Ops.mul (f64Ops.div (f64Ops.add x y) (.fin false 2)) (f64Ops.ofInt (n : Int)))) ((p + q) / 2 * n)
      (n * (E * 3 + M * (1 / 2 ^ 22))) := by
  have hM0 : 0 ≤ M := le_trans (abs_nonneg _) h0
  have hE0 : 0 ≤ E := by obtain ⟨r, _, h⟩ := hx; exact le_trans (abs_nonneg _) h
  have htiny := tiny_le hM
  have htp := tiny_pos
  have h150 := pow150_le hM
  have hn1 : (1 : ℚ) ≤ n := by exact_mod_cast hn
  have hn24 : (n : ℚ) ≤ 2 ^ 24 := by exact_mod_cast hn'
  have hbig' : M + E ≤ 2 ^ 125 := by
    have : 1 * (M + E) ≤ n * (M + E) := mul_le_mul_of_nonneg_right hn1 (by linarith)
    linarith
  have hadd := add64 hx hy (B := 2 * M + 2 * E) (by linarith) (by linarith)
  have hpq : |p + q| ≤ 2 * M := by
    have a := abs_le.mp h0
    have b := abs_le.mp h1
    exact abs_le.mpr ⟨by linarith, by linarith⟩
  have hhalf := half64 (B := 2 * M + 2 * E + ((2 * M + 2 * E) * (1 / 2 ^ 53) + tiny)) ok_add hadd (by linarith) (by linarith)
  have hhalf' : Near (FVal.div f64Fmt (FVal.add f64Fmt x y) (.fin false 2)) ((p + q) / 2) (E * (1 + 1 / 2 ^ 48) + M * (1 / 2 ^ 48)) :=
    hhalf.mono (by linarith)
  have okh : Ok (FVal.div f64Fmt (FVal.add f64Fmt x y) (.fin false 2)) := ok_div ok_add (show (0 : ℚ) ≤ 2 by norm_num)
  have hN : Near (FVal.ofInt f64Fmt (n : Int)) n (n * (1 / 2 ^ 52)) := by
    have := ofInt64 (n := (n : Int)) (by
      rw [Int.cast_natCast, abs_of_nonneg (by linarith)]
      linarith)
    rwa [Int.cast_natCast, abs_of_nonneg (by linarith)] at this
  have hnM0 : 0 ≤ n * M := mul_nonneg (by linarith) hM0
  have hnE0 : 0 ≤ n * E := mul_nonneg (by linarith) hE0
  have hnM : M ≤ n * M := by nlinarith
  have hmul := mul64 (P := M) (Q := n) okh (ok_ofInt n) hhalf' hN
    (by rw [_root_.abs_div, abs_two]; linarith) (by rw [abs_of_nonneg (by linarith)])
    (B := (n * M) * (1 + 1 / 2 ^ 40) + (n * E) * (1 + 1 / 2 ^ 40)) (by
      have : (M + (E * (1 + 1 / 2 ^ 48) + M * (1 / 2 ^ 48))) * (n + n * (1 / 2 ^ 52)) =
        (n * M) * ((1 + 1 / 2 ^ 48) * (1 + 1 / 2 ^ 52)) + (n * E) * ((1 + 1 / 2 ^ 48) * (1 + 1 / 2 ^ 52)) := by ring
      rw [this]
      linarith) (by linarith)
  have hmul' : Near (FVal.mul f64Fmt (FVal.div f64Fmt (FVal.add f64Fmt x y) (.fin false 2)) (FVal.ofInt f64Fmt (n : Int))) ((p + q) / 2 * n)
      ((n * E) * 2 + (n * M) * (1 / 2 ^ 40)) := by
    refine hmul.mono ?_
    have e1 : (E * (1 + 1 / 2 ^ 48) + M * (1 / 2 ^ 48)) * n = (n * E) * (1 + 1 / 2 ^ 48) + (n * M) * (1 / 2 ^ 48) := by ring
    have e2 : n * (1 / 2 ^ 52) * M = (n * M) * (1 / 2 ^ 52) := by ring
    have e3 : (E * (1 + 1 / 2 ^ 48) + M * (1 / 2 ^ 48)) * (n * (1 / 2 ^ 52)) = (n * E) * ((1 + 1 / 2 ^ 48) * (1 / 2 ^ 52)) + (n * M) * (1 / 2 ^ 48 * (1 / 2 ^ 52)) := by ring
    rw [e1, e2, e3]
    linarith
  have okm : Ok (FVal.mul f64Fmt (FVal.div f64Fmt (FVal.add f64Fmt x y) (.fin false 2)) (FVal.ofInt f64Fmt (n : Int))) := ok_mul okh (ok_ofInt n)
  have hpqn : |(p + q) / 2 * n| ≤ n * M := by
    rw [abs_mul, abs_of_nonneg (show (0 : ℚ) ≤ n by linarith), mul_comm]
    refine mul_le_mul_of_nonneg_left ?_ (by linarith)
    rw [_root_.abs_div, abs_two]; linarith
  refine (convert32 okm hmul' (B := n * M + ((n * E) * 2 + (n * M) * (1 / 2 ^ 40))) (by linarith) (by linarith)).1.mono ?_
  have e4 : n * (E * 3 + M * (1 / 2 ^ 22)) = (n * E) * 3 + (n * M) * (1 / 2 ^ 22) := by ring
  rw [e4]
  linarith

/-- The sum for other timestamps, before the conversion. -/
theorem near_fold (f : Int → FVal) (g : Int → ℚ) {M E B : ℚ} (ts : List Int) (hf : ∀ t ∈ ts, Near (f t) (g t) E) (hg : ∀ t ∈ ts, |g t| ≤ M)
    (hE : 0 ≤ E) (hM : 0 ≤ M) (hlt : B ≤ 2 ^ 250) (hB0 : 0 ≤ B) {acc : FVal} {a : ℚ} {k : Nat} (ha : |a| ≤ k * M)
    (hacc : Near acc a (k * (E + B * (1 / 2 ^ 53) + tiny)))
    (hB : ((k + ts.length : Nat) : ℚ) * (M + (E + B * (1 / 2 ^ 53) + tiny)) ≤ B) :
    Near (ts.foldl (fun sum t => f64Ops.add sum (f t)) acc) (a + (ts.map g).sum) (((k + ts.length : Nat) : ℚ) * (E + B * (1 / 2 ^ 53) + tiny)) := by
  have htp := tiny_pos
  induction ts generalizing acc a k with
  | nil => simpa using hacc
  | cons t ts ih =>
    have hft := hf t (by simp)
    have hgt := hg t (by simp)
    have hadd := add64 hacc hft (B := B) (by
      refine le_trans ?_ hB
      simp only [List.length_cons]
      push_cast
      have hB' : 0 ≤ B * (1 / 2 ^ 53) := mul_nonneg hB0 (by norm_num)
      have : 0 ≤ (ts.length : ℚ) * (M + (E + B * (1 / 2 ^ 53) + tiny)) := mul_nonneg (Nat.cast_nonneg _) (by linarith)
      linarith) hlt
    have := ih (fun t' ht' => hf t' (by simp [ht'])) (fun t' ht' => hg t' (by simp [ht'])) (acc := f64Ops.add acc (f t)) (a := a + g t) (k := k + 1)
      (by
        push_cast
        have a1 := abs_le.mp ha
        have a2 := abs_le.mp hgt
        exact abs_le.mpr ⟨by linarith, by linarith⟩)
      (hadd.mono (by push_cast; linarith))
      (by
        rw [show k + 1 + ts.length = k + (t :: ts).length by simp; omega]
        exact hB)
    rw [show k + 1 + ts.length = k + (t :: ts).length by simp; omega] at this
    simpa [add_assoc] using this

end ModelarDB.Lemmas
