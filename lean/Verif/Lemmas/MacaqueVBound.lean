import Verif.Lemmas.MacaqueV
import Verif.Lemmas.FloatOps
import Verif.Spec.Log2
/-
Rewriting of mantissa bits.
-/
namespace ModelarDB.Lemmas
open Model Spec

theorem rewrite_eq (v : Nat) (hv : v < 2 ^ 32) (n : Int) :
    rewriteBitsByN v n = v / 2 ^ (n % 32).toNat * 2 ^ (n % 32).toNat := by
  unfold rewriteBitsByN
  dsimp only
  generalize hj : (n % 32).toNat = j
  have hj32 : j < 32 := by omega
  have : v / 2 ^ j * 2 ^ j = (v >>> j) <<< j := by
    rw [Nat.shiftRight_eq_div_pow, Nat.shiftLeft_eq]
  rw [this]
  apply Nat.eq_of_testBit_eq
  intro i
  rw [Nat.testBit_and, Nat.testBit_mod_two_pow, Nat.testBit_shiftLeft, Nat.testBit_shiftLeft,
    Nat.testBit_two_pow_sub_one, Nat.testBit_shiftRight]
  by_cases hi : i < 32
  · by_cases hij : j ≤ i
    · have : i - j < 32 := by omega
      simp [hi, hij, this]
    · simp [hij]
  · rw [Nat.testBit_lt_two_pow (Nat.lt_of_lt_of_le hv (Nat.pow_le_pow_right (by decide) (by omega)))]
    by_cases hij : j ≤ i
    · have h2 : v.testBit (j + (i - j)) = false :=
        Nat.testBit_lt_two_pow (Nat.lt_of_lt_of_le hv (Nat.pow_le_pow_right (by decide) (by omega)))
      simp [h2]
    · simp [hij]

theorem getExponent_eq (v : Nat) : getExponent v = ((v / 2 ^ 23 % 256 : Nat) : Int) - 127 := by
  unfold getExponent
  rw [show (0xff : Nat) = 2 ^ 8 - 1 from rfl, Nat.and_two_pow_sub_one_eq_mod, Nat.shiftRight_eq_div_pow]

/-- Decomposition of a normal number. -/
structure Normal (v : Nat) (s : Bool) (q : ℚ) (x : Int) : Prop where
  lt : v < 2 ^ 32
  val : FVal.ofBits32 v = .fin s q
  sign : s = v.testBit 31
  expo : getExponent v = x
  xlo : -126 ≤ x
  xhi : x ≤ 127
  mag : q = ((2 ^ 23 + v % 2 ^ 23 : Nat) : ℚ) * pow2 (x - 23)
  lo : pow2 x ≤ q
  hi : q < pow2 (x + 1)

theorem normal_of_ge {v : Nat} {s : Bool} {q : ℚ} (hv : v < 2 ^ 32) (h : FVal.ofBits32 v = .fin s q)
    (hq : pow2 (-126) ≤ q) : ∃ x, Normal v s q x := by
  have hm : v % 2 ^ 23 < 2 ^ 23 := Nat.mod_lt _ (by decide)
  have he : v / 2 ^ 23 % 256 < 256 := Nat.mod_lt _ (by decide)
  have h' := h
  unfold FVal.ofBits32 at h'
  dsimp only at h'
  split at h'
  · split at h' <;> cases h'
  · rename_i h255
    split at h'
    · injection h' with h1 h2
      exfalso
      have h1 : ((v % 2 ^ 23 : Nat) : ℚ) < pow2 23 := by
        have : ((v % 2 ^ 23 : Nat) : ℚ) < ((2 ^ 23 : Nat) : ℚ) := by exact_mod_cast hm
        have e : pow2 23 = ((2 ^ 23 : Nat) : ℚ) := by rw [pow2_eq]; norm_num
        rwa [e]
      have : q < pow2 (-126) := by
        rw [← h2]
        calc _ < pow2 23 * pow2 (-149) := mul_lt_mul_of_pos_right h1 (pow2_pos _)
          _ = pow2 (23 + -149) := (pow2_add _ _).symm
      linarith
    · rename_i h0
      injection h' with h1 h2
      have hp := pow2_pos (((v / 2 ^ 23 % 256 : Nat) : Int) - 127 - 23)
      have hmag : q = ((2 ^ 23 + v % 2 ^ 23 : Nat) : ℚ) * pow2 (((v / 2 ^ 23 % 256 : Nat) : Int) - 127 - 23) := by
        rw [← h2]; congr 2; ring
      have e23 : pow2 23 = ((2 ^ 23 : Nat) : ℚ) := by rw [pow2_eq]; norm_num
      have e24 : pow2 24 = ((2 ^ 24 : Nat) : ℚ) := by rw [pow2_eq]; norm_num
      refine ⟨((v / 2 ^ 23 % 256 : Nat) : Int) - 127, hv, h, h1.symm, getExponent_eq v, by omega, by omega, hmag, ?_, ?_⟩
      · rw [hmag]
        calc _ = pow2 (23 + (((v / 2 ^ 23 % 256 : Nat) : Int) - 127 - 23)) := by congr 1; ring
          _ = pow2 23 * pow2 (((v / 2 ^ 23 % 256 : Nat) : Int) - 127 - 23) := pow2_add _ _
          _ ≤ _ := by
            apply mul_le_mul_of_nonneg_right _ hp.le
            rw [e23]; exact_mod_cast (by omega)
      · rw [hmag]
        calc _ < pow2 24 * pow2 (((v / 2 ^ 23 % 256 : Nat) : Int) - 127 - 23) := by
              apply mul_lt_mul_of_pos_right _ hp
              rw [e24]; exact_mod_cast (by omega)
          _ = pow2 (24 + (((v / 2 ^ 23 % 256 : Nat) : Int) - 127 - 23)) := (pow2_add _ _).symm
          _ = _ := by congr 1; ring

theorem testBit_keep (v j : Nat) (hj : j ≤ 31) : (v / 2 ^ j * 2 ^ j).testBit 31 = v.testBit 31 := by
  have : v / 2 ^ j * 2 ^ j = (v >>> j) <<< j := by
    rw [Nat.shiftRight_eq_div_pow, Nat.shiftLeft_eq]
  rw [this, Nat.testBit_shiftLeft, Nat.testBit_shiftRight]
  simp [hj]

/-- Clearing low bits of a normal number keeps the sign and does not increase the magnitude; if only
mantissa bits are cleared the difference is a small multiple of the last place. -/
theorem clear_spec {v : Nat} {s : Bool} {q : ℚ} {x : Int} (h : Normal v s q x) (j : Nat) (hj : j ≤ 31) :
    ∃ q', FVal.ofBits32 (v / 2 ^ j * 2 ^ j) = .fin s q' ∧ 0 ≤ q' ∧ q' ≤ q ∧
      (j ≤ 23 → q - q' = ((v % 2 ^ j : Nat) : ℚ) * pow2 (x - 23)) := by
  have hxe := h.expo
  rw [getExponent_eq] at hxe
  have hm : v % 2 ^ 23 < 2 ^ 23 := Nat.mod_lt _ (by decide)
  have hp := pow2_pos (x - 23)
  have hsign := testBit_keep v j hj
  have hxl := h.xlo
  have hxh := h.xhi
  by_cases hj23 : j ≤ 23
  · have hsplit : (2 : Nat) ^ 23 = 2 ^ j * 2 ^ (23 - j) := by rw [← Nat.pow_add]; congr 1; omega
    have hdiv : v / 2 ^ j * 2 ^ j / 2 ^ 23 = v / 2 ^ 23 := by
      rw [hsplit, Nat.mul_comm (2 ^ j), Nat.mul_div_mul_right _ _ (Nat.two_pow_pos j),
        Nat.mul_comm, Nat.div_div_eq_div_mul]
    have hmod : v / 2 ^ j * 2 ^ j % 2 ^ 23 + v % 2 ^ j = v % 2 ^ 23 := by
      rw [hsplit, Nat.mod_mul, Nat.mul_mod_left, Nat.mul_div_cancel _ (Nat.two_pow_pos j), Nat.mod_mul]
      omega
    refine ⟨((2 ^ 23 + v / 2 ^ j * 2 ^ j % 2 ^ 23 : Nat) : ℚ) * pow2 (x - 23), ?_, by positivity, ?_, ?_⟩
    · unfold FVal.ofBits32
      dsimp only
      rw [hdiv, if_neg (by omega), if_neg (by omega), hsign, ← h.sign]
      congr 3
      omega
    · rw [h.mag]
      apply mul_le_mul_of_nonneg_right _ hp.le
      exact_mod_cast (by omega)
    · intro _
      rw [h.mag, ← sub_mul]
      congr 1
      have : ((2 ^ 23 + v % 2 ^ 23 : Nat) : ℚ) =
          ((2 ^ 23 + v / 2 ^ j * 2 ^ j % 2 ^ 23 : Nat) : ℚ) + ((v % 2 ^ j : Nat) : ℚ) := by
        exact_mod_cast (by omega)
      rw [this]; ring
  · have hsplit : (2 : Nat) ^ j = 2 ^ (j - 23) * 2 ^ 23 := by rw [← Nat.pow_add]; congr 1; omega
    have hb : v / 2 ^ j * 2 ^ j = (v / 2 ^ 23 / 2 ^ (j - 23) * 2 ^ (j - 23)) * 2 ^ 23 := by
      rw [Nat.mul_assoc, ← hsplit, Nat.div_div_eq_div_mul, Nat.mul_comm (2 ^ 23), ← hsplit]
    have hdiv : v / 2 ^ j * 2 ^ j / 2 ^ 23 = v / 2 ^ 23 / 2 ^ (j - 23) * 2 ^ (j - 23) := by
      rw [hb, Nat.mul_div_cancel _ (by decide)]
    have hmod : v / 2 ^ j * 2 ^ j % 2 ^ 23 = 0 := by rw [hb, Nat.mul_mod_left]
    have hw : v / 2 ^ 23 / 2 ^ (j - 23) * 2 ^ (j - 23) % 256 ≤ v / 2 ^ 23 % 256 := by
      have h256 : (256 : Nat) = 2 ^ (j - 23) * 2 ^ (8 - (j - 23)) := by
        rw [← Nat.pow_add]
        have : j - 23 + (8 - (j - 23)) = 8 := by omega
        rw [this]
      rw [h256, Nat.mod_mul, Nat.mul_mod_left, Nat.mul_div_cancel _ (Nat.two_pow_pos _), Nat.mod_mul]
      omega
    have hq0 : 0 ≤ q := le_trans (pow2_pos x).le h.lo
    unfold FVal.ofBits32
    dsimp only
    rw [hdiv, hmod, hsign, ← h.sign, if_neg (by omega)]
    by_cases h0 : v / 2 ^ 23 / 2 ^ (j - 23) * 2 ^ (j - 23) % 256 = 0
    · rw [if_pos h0]
      refine ⟨_, rfl, ?_, ?_, fun h => absurd h hj23⟩
      · simp
      · simpa using hq0
    · rw [if_neg h0]
      refine ⟨_, rfl, ?_, ?_, fun h => absurd h hj23⟩
      · exact mul_nonneg (Nat.cast_nonneg _) (pow2_pos _).le
      · rw [h.mag]
        apply mul_le_mul _ _ (pow2_pos _).le (Nat.cast_nonneg _)
        · exact_mod_cast (by omega)
        · apply pow2_le; omega

theorem equalOrNan_self (a : FVal) : equalOrNan a a = true := by
  cases a with
  | nan => rfl
  | inf s => cases s <;> rfl
  | fin s q => simp [equalOrNan, FVal.eq]

theorem within_self (eb : ErrorBound) (a : FVal) : isValueWithinErrorBound eb a a = true := by
  cases eb <;> simp [isValueWithinErrorBound, equalOrNan_self]

/-- The result of rewriting is always the value with low bits cleared. -/
theorem rewrite_clears (log2 : Log2) (eb : ErrorBound) {v : Nat} {s : Bool} {q : ℚ} {x : Int}
    (h : Normal v s q x) :
    ∃ j, j ≤ 31 ∧ rewriteLeastMantissaBits log2 eb v = v / 2 ^ j * 2 ^ j := by
  unfold rewriteLeastMantissaBits
  dsimp only
  split
  · exact ⟨0, by decide, by simp⟩
  · split
    · exact ⟨_, by omega, rewrite_eq v h.lt _⟩
    · exact ⟨_, by omega, rewrite_eq v h.lt _⟩

/-- The core of C05: the difference is below the allowed deviation `a`, or the check succeeded. -/
theorem rewrite_core {log2 : Log2} (hlog : Log2Accurate log2) (eb : ErrorBound) {v : Nat} {s : Bool}
    {q : ℚ} {x : Int} (h : Normal v s q x) {a : ℚ}
    (ha : (maximumAllowedDeviation eb (.fin s q)).convert f32Fmt = .fin false a)
    (hrep : Representable f32Fmt a) (hlo : pow2 (x - 23) ≤ a) (hhi : a < pow2 (x + 1)) :
    isValueWithinErrorBound eb (.fin s q) (FVal.ofBits32 (rewriteLeastMantissaBits log2 eb v)) = true ∨
    ∃ q' : ℚ, FVal.ofBits32 (rewriteLeastMantissaBits log2 eb v) = .fin s q' ∧ 0 ≤ q' ∧ q' ≤ q ∧
      q - q' < a ∧ ∃ r : Nat, r < 2 ^ 23 ∧ q - q' = r * pow2 (x - 23) := by
  have hqpos : 0 < q := lt_of_lt_of_le (pow2_pos x) h.lo
  have hapos : 0 < a := lt_of_lt_of_le (pow2_pos _) hlo
  have hpx := pow2_pos x
  -- The quotient is exact.
  have hE : FVal.div f32Fmt (.fin false a) (.fin false (pow2 x)) = .fin false (a / pow2 x) := by
    simp only [FVal.div, if_neg (pow2_ne x), Bool.xor_self]
    apply round_mag32
    refine ⟨by positivity, ?_, ?_⟩
    · obtain ⟨n, e, hn, he, rfl⟩ := hrep
      refine ⟨n, e - x, hn, ?_, ?_⟩
      · have h1 : pow2 (x - 23) < pow2 (24 + e) := by
          rw [pow2_add]
          refine lt_of_le_of_lt hlo (mul_lt_mul_of_pos_right ?_ (pow2_pos e))
          have e24 : pow2 24 = ((2 ^ 24 : Nat) : ℚ) := by rw [pow2_eq]; norm_num
          rw [e24]; exact_mod_cast hn
        have := pow2_lt_iff.mp h1
        simp [f32Fmt]; omega
      · rw [show e = (e - x) + x by ring, pow2_add]
        field_simp
        simp
    · rw [div_lt_iff₀ hpx, ← pow2_add]
      exact lt_of_lt_of_le hhi (pow2_le (by omega))
  have hEpos : 0 < a / pow2 x := by positivity
  have hElo : pow2 (-23) ≤ a / pow2 x := by
    rw [le_div_iff₀ hpx, ← pow2_add]
    calc pow2 (-23 + x) = pow2 (x - 23) := by congr 1; ring
      _ ≤ a := hlo
  have hEhi : a / pow2 x < pow2 1 := by
    rw [div_lt_iff₀ hpx, ← pow2_add]
    calc a < _ := hhi
      _ = _ := by congr 1; ring
  generalize hk : log2 (.fin false (a / pow2 x)) = k at *
  -- Bounds on the position.
  have hbounds : 0 ≤ k ∧ k ≤ 23 ∧ pow2 (x - k - 1) ≤ a := by
    obtain ⟨l1, l2⟩ := hlog (a / pow2 x) hEpos
    rw [hk] at l1 l2
    rcases le_or_gt (a / pow2 x) 1 with h1 | h1
    · obtain ⟨c1, c2⟩ := l1 h1
      rw [← pow2_eq] at c1 c2
      have d1 := pow2_lt_iff.mp (lt_of_le_of_lt hElo c2)
      have d2 := pow2_lt_iff.mp (lt_of_lt_of_le c1 (by rw [pow2_zero]; exact h1) : pow2 _ < pow2 0)
      refine ⟨by omega, by omega, ?_⟩
      rw [lt_div_iff₀ hpx, ← pow2_add] at c1
      calc _ = pow2 (-(k + 1) + x) := by congr 1; ring
        _ ≤ a := c1.le
    · obtain ⟨c1, c2⟩ := l2 h1.le
      rw [← pow2_eq] at c1 c2
      have d1 := pow2_lt_iff.mp (lt_trans c1 hEhi)
      have d2 := pow2_lt_iff.mp (lt_trans (by rw [pow2_zero]; exact h1 : pow2 0 < _) c2)
      refine ⟨by omega, by omega, ?_⟩
      have h1' := h1
      rw [lt_div_iff₀ hpx, one_mul] at h1'
      exact le_trans (pow2_le (by omega)) h1'.le
  obtain ⟨k0, k23, hak⟩ := hbounds
  have hval : rewriteLeastMantissaBits log2 eb v =
      if !isValueWithinErrorBound eb (.fin s q) (FVal.ofBits32 (rewriteBitsByN v (23 - k))) then
        rewriteBitsByN v (23 - k - 1) else rewriteBitsByN v (23 - k) := by
    unfold rewriteLeastMantissaBits
    simp only [h.val, ha, h.expo, hE, hk]
    rw [if_neg]
    simp [FVal.abs, FVal.eq, FVal.isNan, FVal.isInfinite, FVal.signed]
    exact ne_of_gt hqpos
  rw [hval]
  by_cases hw : isValueWithinErrorBound eb (.fin s q) (FVal.ofBits32 (rewriteBitsByN v (23 - k))) = true
  · left
    rw [hw]
    simpa using hw
  · right
    have hk23 : k ≠ 23 := by
      rintro rfl
      apply hw
      rw [rewrite_eq v h.lt]
      have : ((23 - 23 : Int) % 32).toNat = 0 := by decide
      rw [this]
      simp only [Nat.pow_zero, Nat.div_one, Nat.mul_one, h.val]
      exact within_self _ _
    rw [Bool.not_eq_true] at hw
    rw [hw]
    simp only [Bool.not_false, if_true]
    rw [rewrite_eq v h.lt]
    have hj : ((23 - k - 1) % 32).toNat = (22 - k).toNat := by
      congr 1; omega
    rw [hj]
    obtain ⟨q', e1, e2, e3, e4⟩ := clear_spec h (22 - k).toNat (by omega)
    refine ⟨q', e1, e2, e3, ?_, v % 2 ^ (22 - k).toNat, ?_, e4 (by omega)⟩
    · rw [e4 (by omega)]
      have h1 : ((v % 2 ^ (22 - k).toNat : Nat) : ℚ) < pow2 (22 - k) := by
        have e : pow2 (22 - k) = ((2 ^ (22 - k).toNat : Nat) : ℚ) := by
          have : (22 - k) = (((22 - k).toNat : Nat) : Int) := by omega
          conv_lhs => rw [this]
          rw [pow2_natCast]; push_cast; rfl
        rw [e]
        exact_mod_cast Nat.mod_lt _ (Nat.two_pow_pos _)
      calc _ < pow2 (22 - k) * pow2 (x - 23) := mul_lt_mul_of_pos_right h1 (pow2_pos _)
        _ = pow2 (x - k - 1) := by rw [← pow2_add]; congr 1; ring
        _ ≤ a := hak
    · exact Nat.lt_of_lt_of_le (Nat.mod_lt _ (Nat.two_pow_pos _)) (Nat.pow_le_pow_right (by decide) (by omega))

/-! ### Absolute error bound -/

theorem within_absolute {s : Bool} {p q b : ℚ} (hp : Mag32 p) (hq : 0 ≤ q) (hqp : q ≤ p)
    (h : roundMag f32Fmt (p - q) ≤ b) :
    isValueWithinErrorBound (.absolute (.fin false b)) (.fin s p) (.fin s q) = true := by
  obtain ⟨t, e, _⟩ := sub_fin_same s hq hqp hp
  simp only [isValueWithinErrorBound, e, FVal.abs]
  split
  · rfl
  · exact le_fin_pos.mpr h

theorem representable_f64_of_f32 {q : ℚ} (h : Representable f32Fmt q) : Representable f64Fmt q := by
  obtain ⟨m, e, hm, he, rfl⟩ := h
  refine ⟨m, e, lt_of_lt_of_le hm (by decide), ?_, rfl⟩
  simp [f32Fmt, f64Fmt] at *; omega

theorem c99_bounds : (1 / 2 : ℚ) ≤ roundMag f64Fmt (99 / 100) ∧ roundMag f64Fmt (99 / 100) ≤ 1 := by
  decide +kernel

theorem c99_ofRat : FVal.ofRat f64Fmt false (99 / 100) = .fin false (roundMag f64Fmt (99 / 100)) := by
  unfold FVal.ofRat
  rw [if_neg (by norm_num), if_neg (by norm_num), round_of_lt]
  refine lt_of_le_of_lt c99_bounds.2 ?_
  rw [← pow2_zero]; exact pow2_lt (by decide)

/-- The deviation allowed by an absolute error bound. -/
theorem absolute_deviation {b : ℚ} (hb : Mag32 b) (v : FVal) :
    ∃ a, (maximumAllowedDeviation (.absolute (.fin false b)) v).convert f32Fmt = .fin false a ∧
      Representable f32Fmt a ∧ a ≤ b ∧ ∀ e : Int, -149 ≤ e → pow2 (e + 1) ≤ b → pow2 e ≤ a := by
  obtain ⟨c1, c2⟩ := c99_bounds
  generalize hc : roundMag f64Fmt (99 / 100) = c at *
  have hbc : b * c ≤ b := by have := hb.nonneg; nlinarith
  have hbc0 : 0 ≤ b * c := mul_nonneg hb.nonneg (by linarith)
  have hb64 := representable_f64_of_f32 hb.rep
  have h1 : roundMag f64Fmt (b * c) ≤ b := roundMag_le (by decide) hbc0 hbc hb64
  have h10 : 0 ≤ roundMag f64Fmt (b * c) := roundMag_nonneg hbc0
  have h2 : roundMag f32Fmt (roundMag f64Fmt (b * c)) ≤ b := roundMag_le (by decide) h10 h1 hb.rep
  refine ⟨roundMag f32Fmt (roundMag f64Fmt (b * c)), ?_, roundMag_representable (by decide) h10, h2, ?_⟩
  · unfold maximumAllowedDeviation
    rw [c99_ofRat, hc]
    simp only [FVal.mul, Bool.xor_self]
    rw [round_of_lt (lt_of_le_of_lt h1 (lt_trans hb.lt (pow2_lt (by decide))))]
    simp only [FVal.convert]
    rw [round_of_lt (lt_of_le_of_lt h2 hb.lt)]
  · intro e he heb
    have hpe := pow2_pos e
    have hlow : pow2 e ≤ b * c := by
      rw [pow2_succ] at heb
      nlinarith
    apply le_roundMag (by decide) hpe.le _ (representable_pow2 (by decide) he)
    exact le_roundMag (by decide) hpe.le hlow (representable_pow2 (by decide) (by simp [f64Fmt]; omega))

theorem rewrite_absolute {log2 : Log2} (hlog : Log2Accurate log2) {b : ℚ} (hb : Mag32 b) {v : Nat}
    {s : Bool} {q : ℚ} {x : Int} (h : Normal v s q x) (hqb : q ≤ pow2 22 * b) :
    isValueWithinErrorBound (.absolute (.fin false b)) (.fin s q)
      (FVal.ofBits32 (rewriteLeastMantissaBits log2 (.absolute (.fin false b)) v)) = true := by
  obtain ⟨a, ha, harep, hab, hlow⟩ := absolute_deviation hb (.fin s q)
  have hmag := mag32_ofBits v h.val
  have hxl := h.xlo
  have hlo : pow2 (x - 23) ≤ a := by
    apply hlow _ (by omega)
    have h1 : pow2 x ≤ pow2 22 * b := le_trans h.lo hqb
    have h2 : pow2 x = pow2 22 * pow2 (x - 23 + 1) := by rw [← pow2_add]; congr 1; ring
    rw [h2] at h1
    exact le_of_mul_le_mul_left h1 (pow2_pos _)
  rcases lt_or_ge a (pow2 (x + 1)) with hs | hs
  · rcases rewrite_core hlog (.absolute (.fin false b)) h ha harep hlo hs with hr | ⟨q', e1, e2, e3, e4, e5⟩
    · exact hr
    · rw [e1]
      apply within_absolute hmag e2 e3
      exact roundMag_le (by decide) (by linarith) (by linarith) hb.rep
  · obtain ⟨j, hj, hr⟩ := rewrite_clears log2 (.absolute (.fin false b)) h
    obtain ⟨q', e1, e2, e3, _⟩ := clear_spec h j hj
    rw [hr, e1]
    apply within_absolute hmag e2 e3
    apply roundMag_le (by decide) (by linarith) _ hb.rep
    have := h.hi
    linarith

/-! ### Relative error bound -/

theorem ilog2_ge {q : ℚ} {n : Int} (h : pow2 n ≤ q) : n ≤ ilog2 q := by
  have hq : 0 < q := lt_of_lt_of_le (pow2_pos n) h
  have := pow2_lt_iff.mp (lt_of_le_of_lt h (ilog2_spec hq).2)
  omega

theorem roundMag32_up {q : ℚ} (h : pow2 (-126) ≤ q) : roundMag f32Fmt q ≤ q * (1 + pow2 (-24)) := by
  have hq : 0 < q := lt_of_lt_of_le (pow2_pos _) h
  have h1 := ilog2_ge h
  have := roundMag_rel (fmt := f32Fmt) hq (by simp [f32Fmt]; omega)
  have h2 := (abs_le.mp this).2
  have h3 : (-(f32Fmt.prec : Int)) = -24 := rfl
  rw [h3] at h2
  linarith

theorem roundMag64_up {q : ℚ} (h : pow2 (-1022) ≤ q) : roundMag f64Fmt q ≤ q * (1 + pow2 (-53)) := by
  have hq : 0 < q := lt_of_lt_of_le (pow2_pos _) h
  have h1 := ilog2_ge h
  have := roundMag_rel (fmt := f64Fmt) hq (by simp [f64Fmt]; omega)
  have h2 := (abs_le.mp this).2
  have h3 : (-(f64Fmt.prec : Int)) = -53 := rfl
  rw [h3] at h2
  linarith

theorem c1001_bounds : (10009 / 100 : ℚ) ≤ roundMag f64Fmt (1001 / 10) ∧
    roundMag f64Fmt (1001 / 10) ≤ 10011 / 100 := by
  decide +kernel

theorem c1001_ofRat : FVal.ofRat f64Fmt false (1001 / 10) = .fin false (roundMag f64Fmt (1001 / 10)) := by
  unfold FVal.ofRat
  rw [if_neg (by norm_num), if_neg (by norm_num), round_of_lt]
  refine lt_of_le_of_lt c1001_bounds.2 ?_
  refine lt_trans (?_ : (10011 / 100 : ℚ) < pow2 7) (pow2_lt (by decide))
  rw [pow2_eq]; norm_num

theorem relative_deviation {p : ℚ} (hplo : pow2 (-16) ≤ p) (hphi : p ≤ 100) {q : ℚ} {s : Bool}
    {x : Int} (hxl : -102 ≤ x) (hxh : x ≤ 127) (hq : Mag32 q) (hqlo : pow2 x ≤ q) :
    ∃ a, (maximumAllowedDeviation (.relative (.fin false p)) (.fin s q)).convert f32Fmt = .fin false a ∧
      Representable f32Fmt a ∧ pow2 (x - 23) ≤ a ∧ a ≤ q * (p / (10008 / 100)) := by
  obtain ⟨c1, c2⟩ := c1001_bounds
  generalize hc : roundMag f64Fmt (1001 / 10) = c at *
  have hppos : 0 < p := lt_of_lt_of_le (pow2_pos _) hplo
  have hqpos : 0 < q := lt_of_lt_of_le (pow2_pos _) hqlo
  have hcpos : 0 < c := by linarith
  -- p / c
  have hlow1 : pow2 (-23) ≤ p / c := by
    rw [le_div_iff₀ hcpos]
    have e : pow2 (-16) = pow2 (-23) * 128 := by simp only [pow2_eq]; norm_num
    rw [e] at hplo
    have := pow2_pos (-23)
    nlinarith
  have hup1 : p / c ≤ p / (10009 / 100) := div_le_div_of_nonneg_left hppos.le (by norm_num) c1
  obtain ⟨d, hd⟩ : ∃ d, d = roundMag f64Fmt (p / c) := ⟨_, rfl⟩
  have hdlo : pow2 (-23) ≤ d := by
    rw [hd]; exact le_roundMag (by decide) (pow2_pos _).le hlow1 (representable_pow2 (by decide) (by decide))
  have hdup : d ≤ p / (10009 / 100) * (1 + pow2 (-53)) := by
    rw [hd]
    refine le_trans (roundMag64_up (le_trans (pow2_le (by decide)) hlow1)) ?_
    exact mul_le_mul_of_nonneg_right hup1 (by have := pow2_pos (-53); linarith)
  have hdpos : 0 < d := lt_of_lt_of_le (pow2_pos _) hdlo
  -- q * d
  have hlow2 : pow2 (x - 23) ≤ q * d := by
    calc pow2 (x - 23) = pow2 x * pow2 (-23) := by rw [← pow2_add]; rfl
      _ ≤ q * d := mul_le_mul hqlo hdlo (pow2_pos _).le hqpos.le
  obtain ⟨g, hg⟩ : ∃ g, g = roundMag f64Fmt (q * d) := ⟨_, rfl⟩
  have hglo : pow2 (x - 23) ≤ g := by
    rw [hg]
    exact le_roundMag (by decide) (pow2_pos _).le hlow2 (representable_pow2 (by decide) (by simp [f64Fmt]; omega))
  have hgup : g ≤ q * d * (1 + pow2 (-53)) := by
    rw [hg]
    exact roundMag64_up (le_trans (pow2_le (by omega)) hlow2)
  have hgpos : 0 < g := lt_of_lt_of_le (pow2_pos _) hglo
  -- conversion
  have halo : pow2 (x - 23) ≤ roundMag f32Fmt g :=
    le_roundMag (by decide) (pow2_pos _).le hglo (representable_pow2 (by decide) (by simp [f32Fmt]; omega))
  have haup : roundMag f32Fmt g ≤ g * (1 + pow2 (-24)) :=
    roundMag32_up (le_trans (pow2_le (by omega)) hglo)
  have e53 : pow2 (-53) = 1 / 2 ^ 53 := by rw [pow2_eq]; norm_num
  have e24 : pow2 (-24) = 1 / 2 ^ 24 := by rw [pow2_eq]; norm_num
  have hfin : g * (1 + pow2 (-24)) ≤ q * (p / (10008 / 100)) := by
    rw [e53] at hdup hgup
    rw [e24]
    have s1 : q * d ≤ q * (p / (10009 / 100) * (1 + 1 / 2 ^ 53)) := mul_le_mul_of_nonneg_left hdup hqpos.le
    have hqp : 0 < q * p := by positivity
    have s2 : g ≤ q * (p / (10009 / 100) * (1 + 1 / 2 ^ 53)) * (1 + 1 / 2 ^ 53) :=
      le_trans hgup (mul_le_mul_of_nonneg_right s1 (by norm_num))
    have s3 : g * (1 + 1 / 2 ^ 24) ≤
        q * (p / (10009 / 100) * (1 + 1 / 2 ^ 53)) * (1 + 1 / 2 ^ 53) * (1 + 1 / 2 ^ 24) :=
      mul_le_mul_of_nonneg_right s2 (by norm_num)
    refine le_trans s3 ?_
    have e1 : q * (p / (10009 / 100) * (1 + 1 / 2 ^ 53)) * (1 + 1 / 2 ^ 53) * (1 + 1 / 2 ^ 24) =
        (q * p) * ((100 / 10009) * (1 + 1 / 2 ^ 53) * (1 + 1 / 2 ^ 53) * (1 + 1 / 2 ^ 24)) := by ring
    have e2 : q * (p / (10008 / 100)) = (q * p) * (100 / 10008) := by ring
    rw [e1, e2]
    exact mul_le_mul_of_nonneg_left (by norm_num) hqp.le
  have hle_q : g * (1 + pow2 (-24)) ≤ q := by
    refine le_trans hfin ?_
    have : p / (10008 / 100) ≤ 1 := by rw [div_le_one (by norm_num)]; linarith
    nlinarith
  have hgq : g ≤ q := by
    have := pow2_pos (-24)
    nlinarith
  refine ⟨roundMag f32Fmt g, ?_, roundMag_representable (by decide) hgpos.le, halo, le_trans haup hfin⟩
  unfold maximumAllowedDeviation
  rw [c1001_ofRat, hc]
  simp only [FVal.div, if_neg (ne_of_gt hcpos), Bool.xor_self]
  have hd1 : d < pow2 f64Fmt.emax := by
    refine lt_of_le_of_lt hdup ?_
    have : p / (10009 / 100) * (1 + pow2 (-53)) ≤ pow2 1 := by
      rw [e53, pow2_eq]
      rw [div_mul_eq_mul_div, div_le_iff₀ (by norm_num)]
      norm_num
      linarith
    exact lt_of_le_of_lt this (pow2_lt (by decide))
  rw [round_of_lt (by rw [← hd]; exact hd1), ← hd]
  simp only [FVal.mul, Bool.xor_false]
  rw [round_of_lt (by rw [← hg]; exact lt_of_le_of_lt hgq (lt_trans hq.lt (pow2_lt (by decide)))), ← hg]
  simp only [FVal.abs, FVal.convert]
  rw [round_of_lt]
  exact lt_of_le_of_lt (le_trans haup hle_q) hq.lt

theorem rewrite_relative {log2 : Log2} (hlog : Log2Accurate log2) {p : ℚ} (hp : Mag32 p)
    (hplo : pow2 (-16) ≤ p) (hphi : p ≤ 100) {v : Nat} {s : Bool} {q : ℚ} {x : Int} (h : Normal v s q x)
    (hx : -102 ≤ x) :
    isValueWithinErrorBound (.relative (.fin false p)) (.fin s q)
      (FVal.ofBits32 (rewriteLeastMantissaBits log2 (.relative (.fin false p)) v)) = true := by
  have hmag := mag32_ofBits v h.val
  obtain ⟨a, ha, harep, hlo, hup⟩ := relative_deviation (s := s) hplo hphi hx h.xhi hmag h.lo
  have hqpos : 0 < q := lt_of_lt_of_le (pow2_pos _) h.lo
  have hppos : 0 < p := lt_of_lt_of_le (pow2_pos _) hplo
  have hsmall : a < pow2 (x + 1) := by
    refine lt_of_le_of_lt hup (lt_of_le_of_lt ?_ h.hi)
    have : p / (10008 / 100) ≤ 1 := by rw [div_le_one (by norm_num)]; linarith
    nlinarith
  rcases rewrite_core hlog _ h ha harep hlo hsmall with hr | ⟨q', e1, e2, e3, e4, r, hr, e5⟩
  · exact hr
  · rw [e1]
    obtain ⟨t, hsub, _⟩ := sub_fin_same s e2 e3 hmag
    have hxl := h.xlo
    have hexact : roundMag f32Fmt (q - q') = q - q' := by
      rw [e5]
      exact roundMag_exact ⟨r, x - 23, lt_of_lt_of_le hr (by decide), by simp [f32Fmt]; omega, rfl⟩
    simp only [isValueWithinErrorBound, hsub, hexact]
    split
    · rfl
    · have hd0 : 0 ≤ q - q' := by linarith
      have hquot : (q - q') / q ≤ p / (10008 / 100) := by
        rw [div_le_iff₀ hqpos]
        linarith
      have hquot0 : 0 ≤ (q - q') / q := div_nonneg hd0 hqpos.le
      have e24 : pow2 (-24) = 1 / 2 ^ 24 := by rw [pow2_eq]; norm_num
      have e16 : pow2 (-16) = 1 / 2 ^ 16 := by rw [pow2_eq]; norm_num
      have hr1 : roundMag f32Fmt ((q - q') / q) ≤ p / (10008 / 100) * (1 + pow2 (-24)) := by
        refine le_trans (roundMag_mono (by decide) hquot0 hquot) (roundMag32_up ?_)
        rw [le_div_iff₀ (by norm_num)]
        have : pow2 (-126) ≤ pow2 (-23) := pow2_le (by decide)
        have e : pow2 (-16) = pow2 (-23) * 128 := by simp only [pow2_eq]; norm_num
        have := pow2_pos (-23)
        nlinarith
      have hr0 : 0 ≤ roundMag f32Fmt ((q - q') / q) := roundMag_nonneg hquot0
      have hr100 : roundMag f32Fmt ((q - q') / q) * 100 ≤ p := by
        rw [e24] at hr1
        have : p / (10008 / 100) * (1 + 1 / 2 ^ 24) * 100 ≤ p := by
          have e : p / (10008 / 100) * (1 + 1 / 2 ^ 24) * 100 = p * ((100 / 10008) * (1 + 1 / 2 ^ 24) * 100) := by ring
          rw [e]
          exact mul_le_of_le_one_right hppos.le (by norm_num)
        linarith
      have hr2 : roundMag f32Fmt (roundMag f32Fmt ((q - q') / q) * 100) ≤ p :=
        roundMag_le (by decide) (by positivity) hr100 hp.rep
      simp only [FVal.div, if_neg (ne_of_gt hqpos)]
      rw [round_of_lt]
      · simp only [FVal.abs, FVal.mul, Bool.xor_self]
        rw [round_of_lt (lt_of_le_of_lt hr2 hp.lt), le_fin_pos]
        exact hr2
      · refine lt_of_le_of_lt ?_ hp.lt
        linarith

end ModelarDB.Lemmas
