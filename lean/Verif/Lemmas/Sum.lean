import Verif.Lemmas.Swing
import Verif.Lemmas.Packing
/-
Sums of binary32 numbers.
-/
namespace ModelarDB.Lemmas
open Model Spec

/-- Unit roundoff of binary32. -/
def unit32 : ℚ := pow2 (-24)

theorem unit32_pos : 0 < unit32 := pow2_pos _

/-- Adding values one after the other in binary32. -/
def foldAdd (acc : FVal) (ws : List Nat) : FVal := ws.foldl (fun a w => FVal.add f32Fmt a (FVal.ofBits32 w)) acc

theorem run_runSum (n : Nat) (d : XorDecoder) (acc : FVal) {l : List Nat} (h : XorDecoder.run n d = some l) :
    XorDecoder.runSum n d acc = some (foldAdd acc l) ∧ l.length = n := by
  induction n generalizing d acc l with
  | zero =>
    simp only [XorDecoder.run, Option.some.injEq] at h
    subst h
    exact ⟨rfl, rfl⟩
  | succ n ih =>
    unfold XorDecoder.run at h
    unfold XorDecoder.runSum
    cases hs : d.step with
    | none => rw [hs] at h; cases h
    | some d' =>
      rw [hs] at h
      dsimp only at h ⊢
      cases hr : XorDecoder.run n d' with
      | none => rw [hr] at h; cases h
      | some rest =>
        rw [hr] at h
        injection h with h
        subst h
        obtain ⟨h1, h2⟩ := ih d' (FVal.add f32Fmt acc (FVal.ofBits32 d'.lastValue)) hr
        exact ⟨h1, by simp [h2]⟩

/-- A datum is a binary32 number with the value `q`. -/
structure Num32 (x : FVal) (q : ℚ) : Prop where
  is : Is x q
  rep : ∃ n : Int, q = n * pow2 (-149)

theorem num32_ofBits {b : Nat} (h : (FVal.ofBits32 b).isFinite = true) : ∃ q, Num32 (FVal.ofBits32 b) q := by
  cases hb : FVal.ofBits32 b with
  | nan => rw [hb] at h; cases h
  | inf s => rw [hb] at h; cases h
  | fin s q =>
    refine ⟨ratOf s q, ⟨s, q, rfl, rfl⟩, ?_⟩
    obtain ⟨n, hn⟩ := multiple_of_rep (mag32_ofBits b hb).rep
    cases s
    · exact ⟨n, hn⟩
    · exact ⟨-n, by simp only [ratOf, if_true]; rw [hn]; push_cast; ring⟩

/-- Rounding an exact result that is a multiple of the smallest number. -/
theorem ofRat_num32 {z : Bool} {x : ℚ} (hx : ∃ n : Int, x = n * pow2 (-149))
    (hfin : (FVal.ofRat f32Fmt z x).isFinite = true) :
    ∃ r, Num32 (FVal.ofRat f32Fmt z x) r ∧ |r - x| ≤ |x| * unit32 := by
  obtain ⟨n, hn⟩ := hx
  have herr := roundMag_diff n hn
  have hrep : ∃ k : Int, roundMag f32Fmt |x| = k * pow2 (-149) :=
    multiple_of_rep (roundMag_representable (by decide) (abs_nonneg x))
  obtain ⟨k, hk⟩ := hrep
  unfold FVal.ofRat at hfin ⊢
  by_cases h0 : x = 0
  · subst h0
    simp only [if_true] at hfin ⊢
    exact ⟨0, ⟨⟨z, 0, rfl, by cases z <;> simp [ratOf]⟩, 0, by simp⟩, by simp⟩
  · rw [if_neg h0] at hfin ⊢
    by_cases hneg : x < 0
    · rw [if_pos hneg] at hfin ⊢
      rw [abs_of_neg hneg] at herr hk
      by_cases hov : pow2 f32Fmt.emax ≤ roundMag f32Fmt (-x)
      · simp [FVal.round, if_pos hov, FVal.isFinite] at hfin
      · rw [round_of_lt (not_le.mp hov)]
        refine ⟨-roundMag f32Fmt (-x), ⟨⟨true, _, rfl, rfl⟩, -k, by rw [hk]; push_cast; ring⟩, ?_⟩
        rw [abs_of_neg hneg, show -roundMag f32Fmt (-x) - x = -(roundMag f32Fmt (-x) - -x) by ring, abs_neg]
        exact herr
    · rw [if_neg hneg] at hfin ⊢
      rw [abs_of_nonneg (not_lt.mp hneg)] at herr hk
      by_cases hov : pow2 f32Fmt.emax ≤ roundMag f32Fmt x
      · simp [FVal.round, if_pos hov, FVal.isFinite] at hfin
      · rw [round_of_lt (not_le.mp hov)]
        refine ⟨roundMag f32Fmt x, ⟨⟨false, _, rfl, rfl⟩, k, hk⟩, ?_⟩
        rw [abs_of_nonneg (not_lt.mp hneg)]
        exact herr

theorem add_num32 {x y : FVal} {p q : ℚ} (hx : Num32 x p) (hy : Num32 y q)
    (hfin : (FVal.add f32Fmt x y).isFinite = true) :
    ∃ r, Num32 (FVal.add f32Fmt x y) r ∧ |r - (p + q)| ≤ |p + q| * unit32 := by
  obtain ⟨⟨s, m, rfl, rfl⟩, n, hn⟩ := hx
  obtain ⟨⟨t, m', rfl, rfl⟩, n', hn'⟩ := hy
  have : FVal.add f32Fmt (.fin s m) (.fin t m') = FVal.ofRat f32Fmt (s && t) (ratOf s m + ratOf t m') := rfl
  rw [this] at hfin ⊢
  exact ofRat_num32 ⟨n + n', by rw [hn, hn']; push_cast; ring⟩ hfin

theorem add_not_finite {x y : FVal} (h : x.isFinite = false) : (FVal.add f32Fmt x y).isFinite = false := by
  cases x with
  | nan => rfl
  | fin s m => cases h
  | inf s =>
    cases y with
    | nan => rfl
    | inf t => simp only [FVal.add]; split <;> rfl
    | fin t n => rfl

theorem add_not_finite_right {x y : FVal} (h : y.isFinite = false) : (FVal.add f32Fmt x y).isFinite = false := by
  cases y with
  | nan => cases x <;> rfl
  | fin s m => cases h
  | inf s =>
    cases x with
    | nan => rfl
    | inf t => simp only [FVal.add]; split <;> rfl
    | fin t n => rfl

theorem foldAdd_not_finite {acc : FVal} (h : acc.isFinite = false) (ws : List Nat) : (foldAdd acc ws).isFinite = false := by
  induction ws generalizing acc with
  | nil => exact h
  | cons w ws ih => exact ih (add_not_finite h)

/-- The rational number of a datum, zero if it is not finite. -/
def valueOf : FVal → ℚ
  | .fin s q => ratOf s q
  | _ => 0

theorem Num32.value {x : FVal} {q : ℚ} (h : Num32 x q) : valueOf x = q := by
  obtain ⟨⟨s, m, rfl, rfl⟩, _⟩ := h; rfl

/-- The exact sum of values. -/
def exactSum (ws : List Nat) : ℚ := (ws.map fun w => valueOf (FVal.ofBits32 w)).sum

/-- The exact sum of the magnitudes of values. -/
def exactAbsSum (ws : List Nat) : ℚ := (ws.map fun w => |valueOf (FVal.ofBits32 w)|).sum

theorem exactAbsSum_nonneg (ws : List Nat) : 0 ≤ exactAbsSum ws := by
  refine List.sum_nonneg (fun x hx => ?_)
  obtain ⟨w, _, rfl⟩ := List.mem_map.mp hx
  exact abs_nonneg _

theorem exactSum_abs_le (ws : List Nat) : |exactSum ws| ≤ exactAbsSum ws := by
  induction ws with
  | nil => simp [exactSum, exactAbsSum]
  | cons w ws ih =>
    simp only [exactSum, exactAbsSum, List.map_cons, List.sum_cons] at ih ⊢
    exact (abs_add_le _ _).trans (by linarith)

theorem one_le_pow_unit (n : Nat) : 1 ≤ (1 + unit32) ^ n := one_le_pow₀ (by linarith [unit32_pos])

theorem foldAdd_error (ws : List Nat) {acc : FVal} {a : ℚ} (hacc : Num32 acc a)
    (hws : ∀ w ∈ ws, (FVal.ofBits32 w).isFinite = true) (hfin : (foldAdd acc ws).isFinite = true) :
    ∃ r, Num32 (foldAdd acc ws) r ∧
      |r - (a + exactSum ws)| ≤ ((1 + unit32) ^ ws.length - 1) * (|a| + exactAbsSum ws) := by
  induction ws generalizing acc a with
  | nil => exact ⟨a, hacc, by simp [exactSum]⟩
  | cons w ws ih =>
    obtain ⟨q, hq⟩ := num32_ofBits (hws w (by simp))
    have hf : (FVal.add f32Fmt acc (FVal.ofBits32 w)).isFinite = true := by
      by_contra hc
      rw [Bool.not_eq_true] at hc
      have := foldAdd_not_finite hc ws
      exact absurd hfin (by rw [show foldAdd acc (w :: ws) = foldAdd (FVal.add f32Fmt acc (FVal.ofBits32 w)) ws from rfl, this]; simp)
    obtain ⟨a', ha', herr⟩ := add_num32 hacc hq hf
    obtain ⟨r, hr, hre⟩ := ih ha' (fun x hx => hws x (by simp [hx])) hfin
    refine ⟨r, hr, ?_⟩
    have e1 : exactSum (w :: ws) = q + exactSum ws := by simp [exactSum, hq.value]
    have e2 : exactAbsSum (w :: ws) = |q| + exactAbsSum ws := by simp [exactAbsSum, hq.value]
    rw [e1, e2, List.length_cons, pow_succ]
    set g := (1 + unit32) ^ ws.length with hg
    have hg1 : 1 ≤ g := one_le_pow_unit _
    have hu := unit32_pos
    have hA := exactAbsSum_nonneg ws
    set S := exactSum ws
    set B := exactAbsSum ws
    have haq : |a + q| ≤ |a| + |q| := abs_add_le _ _
    have h1 : |a'| ≤ (1 + unit32) * (|a| + |q|) := by
      have : |a'| ≤ |a' - (a + q)| + |a + q| := by
        have := abs_add_le (a' - (a + q)) (a + q)
        rwa [sub_add_cancel] at this
      nlinarith
    have h2 : |r - (a + (q + S))| ≤ |r - (a' + S)| + |a' - (a + q)| := by
      have := abs_add_le (r - (a' + S)) (a' - (a + q))
      rwa [show r - (a' + S) + (a' - (a + q)) = r - (a + (q + S)) by ring] at this
    have h3 : (g - 1) * (|a'| + B) ≤ (g - 1) * ((1 + unit32) * (|a| + |q|) + B) :=
      mul_le_mul_of_nonneg_left (by linarith) (by linarith)
    have h4 : |a + q| * unit32 ≤ (|a| + |q|) * unit32 := mul_le_mul_of_nonneg_right haq hu.le
    have h5 : 0 ≤ g * unit32 * B := by positivity
    nlinarith

theorem foldAdd_error0 (ws : List Nat) (hws : ∀ w ∈ ws, (FVal.ofBits32 w).isFinite = true)
    (hfin : (foldAdd (.fin false 0) ws).isFinite = true) :
    ∃ r, Num32 (foldAdd (.fin false 0) ws) r ∧
      |r - exactSum ws| ≤ ((1 + unit32) ^ ws.length - 1) * exactAbsSum ws := by
  have := foldAdd_error ws (acc := .fin false 0) (a := 0) ⟨⟨false, 0, rfl, rfl⟩, 0, by simp⟩ hws hfin
  simpa using this

theorem exactSum_replicate {v k : Nat} {q : ℚ} (hq : Num32 (FVal.ofBits32 v) q) : exactSum (pmcMeanGrid v k) = k * q := by
  simp [exactSum, pmcMeanGrid, hq.value]

theorem exactAbsSum_replicate {v k : Nat} {q : ℚ} (hq : Num32 (FVal.ofBits32 v) q) :
    exactAbsSum (pmcMeanGrid v k) = k * |q| := by
  simp [exactAbsSum, pmcMeanGrid, hq.value]

/-- The length of a model as a binary32 number. -/
theorem ofInt32_len {k : Nat} (hk : 0 < k) (hk' : k < 2 ^ 63) :
    ∃ n : Nat, FVal.ofInt f32Fmt k = .fin false n ∧ |(n : ℚ) - k| ≤ k * unit32 := by
  have hkq : (0 : ℚ) < (k : ℚ) := by exact_mod_cast hk
  have hkz : ((k : ℤ) : ℚ) = (k : ℚ) := by norm_cast
  have hrel : |roundMag f32Fmt (k : ℚ) - k| ≤ k * pow2 (-24) := by
    have h1 : (1 : ℚ) ≤ k := by exact_mod_cast hk
    have : (0 : Int) ≤ ilog2 (k : ℚ) := by
      have := pow2_lt_iff.mp (lt_of_le_of_lt (show pow2 0 ≤ (k : ℚ) by simpa [pow2] using h1) (ilog2_spec hkq).2)
      omega
    exact roundMag_rel (fmt := f32Fmt) hkq (by simp [f32Fmt]; omega)
  have hlt : roundMag f32Fmt (k : ℚ) < pow2 f32Fmt.emax := by
    have : roundMag f32Fmt (k : ℚ) ≤ pow2 63 := by
      refine roundMag_le (by decide) hkq.le ?_ (representable_pow2 (by decide) (by decide))
      rw [pow2_eq]
      exact_mod_cast hk'.le
    exact lt_of_le_of_lt this (pow2_lt (by decide))
  have hint : ∃ n : Nat, roundMag f32Fmt (k : ℚ) = n := by
    by_cases hs : k < 2 ^ 24
    · exact ⟨k, roundMag_exact ⟨k, 0, hs, by decide, by simp [pow2]⟩⟩
    · have hpow : pow2 24 ≤ (k : ℚ) := by
        rw [pow2_eq]; exact_mod_cast not_lt.mp hs
      have hl : 0 ≤ lastPlace f32Fmt (k : ℚ) := by
        have := pow2_lt_iff.mp (lt_of_le_of_lt hpow (ilog2_spec hkq).2)
        unfold lastPlace
        simp [f32Fmt]; omega
      obtain ⟨l, hl'⟩ := Int.eq_ofNat_of_zero_le hl
      rw [roundMag_of_pos hkq, hl', pow2_natCast]
      have : 0 ≤ roundEven ((k : ℚ) / 2 ^ l) := roundEven_nonneg (by positivity)
      obtain ⟨m, hm⟩ := Int.eq_ofNat_of_zero_le this
      rw [hm]
      exact ⟨m * 2 ^ l, by push_cast; ring⟩
  obtain ⟨n, hn⟩ := hint
  refine ⟨n, ?_, ?_⟩
  · unfold FVal.ofInt FVal.ofRat
    rw [hkz, if_neg hkq.ne', if_neg (not_lt.mpr hkq.le), round_of_lt hlt, hn]
  · rw [← hn]; exact hrel

/-- The sum of a constant model. -/
theorem pmcMeanSum_error {k : Nat} (hk : 0 < k) (hk' : k < 2 ^ 63) {b : Nat} {v : ℚ} (hv : Num32 (FVal.ofBits32 b) v)
    (hfin : (pmcMeanSum k (FVal.ofBits32 b)).isFinite = true) :
    ∃ r, Num32 (pmcMeanSum k (FVal.ofBits32 b)) r ∧ |r - k * v| ≤ ((1 + unit32) ^ 2 - 1) * (k * |v|) := by
  obtain ⟨n, hn, hne⟩ := ofInt32_len hk hk'
  unfold pmcMeanSum at hfin ⊢
  rw [hn] at hfin ⊢
  obtain ⟨⟨s, m, hx, rfl⟩, j, hj⟩ := hv
  have hm : 0 ≤ m := (mag32_ofBits b hx).nonneg
  rw [hx] at hfin ⊢
  have hmul : FVal.mul f32Fmt (.fin false n) (.fin s m) = FVal.round f32Fmt s (n * m) := by simp [FVal.mul]
  rw [hmul] at hfin ⊢
  have habs : |ratOf s m| = m := by cases s <;> simp [ratOf, abs_of_nonneg hm]
  obtain ⟨i, hi⟩ := multiple_of_rep (mag32_ofBits b hx).rep
  have hnm : (0 : ℚ) ≤ n * m := by positivity
  have herr := roundMag_diff (x := n * m) (n * i) (by rw [hi]; push_cast; ring)
  rw [abs_of_nonneg hnm] at herr
  have hlt : roundMag f32Fmt (n * m) < pow2 f32Fmt.emax := by
    by_contra hc
    simp [FVal.round, if_pos (not_lt.mp hc), FVal.isFinite] at hfin
  rw [round_of_lt hlt]
  refine ⟨ratOf s (roundMag f32Fmt (n * m)), ⟨⟨s, _, rfl, rfl⟩, ?_⟩, ?_⟩
  · obtain ⟨l, hl⟩ := multiple_of_rep (roundMag_representable (fmt := f32Fmt) (by decide) hnm)
    rw [hl]
    cases s
    · exact ⟨l, rfl⟩
    · exact ⟨-l, by simp [ratOf]⟩
  · rw [habs]
    have hsplit : |ratOf s (roundMag f32Fmt (n * m)) - k * ratOf s m| = |roundMag f32Fmt (n * m) - k * m| := by
      cases s
      · rfl
      · simp only [ratOf, if_true]
        rw [show -roundMag f32Fmt (n * m) - k * -m = -(roundMag f32Fmt (n * m) - k * m) by ring, abs_neg]
    rw [hsplit]
    have hu := unit32_pos
    have hkq : (0 : ℚ) < k := by exact_mod_cast hk
    have h1 : |(n : ℚ) * m - k * m| ≤ k * unit32 * m := by
      rw [← sub_mul, abs_mul, abs_of_nonneg hm]
      exact mul_le_mul_of_nonneg_right hne hm
    have h2 : (n : ℚ) ≤ k * (1 + unit32) := by
      have := (abs_le.mp hne).2
      linarith
    have h3 : |roundMag f32Fmt (n * m) - k * m| ≤ |roundMag f32Fmt (n * m) - n * m| + |(n : ℚ) * m - k * m| := by
      have := abs_add_le (roundMag f32Fmt (n * m) - n * m) ((n : ℚ) * m - k * m)
      rwa [sub_add_sub_cancel] at this
    have h4 : (n : ℚ) * m * pow2 (-24) ≤ k * (1 + unit32) * m * unit32 := by
      show (n : ℚ) * m * unit32 ≤ _
      exact mul_le_mul_of_nonneg_right (mul_le_mul_of_nonneg_right h2 hm) hu.le
    nlinarith

/-- Adding two sums. -/
theorem add_error {x y : FVal} {p q P Q A B : ℚ} {m n : Nat} (hx : Num32 x p) (hy : Num32 y q)
    (hfin : (FVal.add f32Fmt x y).isFinite = true)
    (hP : |P| ≤ A) (hQ : |Q| ≤ B)
    (ep : |p - P| ≤ ((1 + unit32) ^ m - 1) * A) (eq : |q - Q| ≤ ((1 + unit32) ^ n - 1) * B) :
    ∃ r, Num32 (FVal.add f32Fmt x y) r ∧ |r - (P + Q)| ≤ ((1 + unit32) ^ (m + n + 1) - 1) * (A + B) := by
  obtain ⟨r, hr, he⟩ := add_num32 hx hy hfin
  refine ⟨r, hr, ?_⟩
  have hu := unit32_pos
  have hA : 0 ≤ A := (abs_nonneg P).trans hP
  have hB : 0 ≤ B := (abs_nonneg Q).trans hQ
  set G := (1 + unit32) ^ (m + n) with hG
  have hm : (1 + unit32) ^ m ≤ G := pow_le_pow_right₀ (by linarith) (by omega)
  have hn : (1 + unit32) ^ n ≤ G := pow_le_pow_right₀ (by linarith) (by omega)
  have ep' : |p - P| ≤ (G - 1) * A := ep.trans (mul_le_mul_of_nonneg_right (by linarith) hA)
  have eq' : |q - Q| ≤ (G - 1) * B := eq.trans (mul_le_mul_of_nonneg_right (by linarith) hB)
  have h1 : |p + q| ≤ G * (A + B) := by
    have h1 := abs_add_le (p - P) P
    have h2 := abs_add_le (q - Q) Q
    have h3 := abs_add_le p q
    rw [sub_add_cancel] at h1 h2
    nlinarith
  have h2 : |r - (P + Q)| ≤ |r - (p + q)| + (|p - P| + |q - Q|) := by
    have h3 := abs_add_le (r - (p + q)) ((p - P) + (q - Q))
    have h4 := abs_add_le (p - P) (q - Q)
    rw [show r - (p + q) + ((p - P) + (q - Q)) = r - (P + Q) by ring] at h3
    linarith
  have h3 : |p + q| * unit32 ≤ G * (A + B) * unit32 := mul_le_mul_of_nonneg_right h1 hu.le
  rw [pow_succ, ← hG]
  nlinarith

end ModelarDB.Lemmas
