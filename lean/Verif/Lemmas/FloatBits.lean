import Verif.Lemmas.Within
/-
The bit pattern of a binary32 datum determines the datum.
-/
namespace ModelarDB.Lemmas
open Model Spec

theorem fields (s : Bool) (e m : Nat) (he : e < 256) (hm : m < 2 ^ 23) :
    (s.toNat * 2 ^ 31 + e * 2 ^ 23 + m).testBit 31 = s ∧
    (s.toNat * 2 ^ 31 + e * 2 ^ 23 + m) / 2 ^ 23 % 256 = e ∧
    (s.toNat * 2 ^ 31 + e * 2 ^ 23 + m) % 2 ^ 23 = m := by
  refine ⟨?_, ?_, ?_⟩
  · rw [Nat.testBit_eq_decide_div_mod_eq]
    cases s
    · simp only [Bool.toNat_false, decide_eq_false_iff_not]; omega
    · simp only [Bool.toNat_true, decide_eq_true_eq]; omega
  · omega
  · omega

/-- A representable magnitude of binary32 is a multiple of its unit in the last place. -/
theorem rep_multiple {q : ℚ} (hq : 0 < q) (h : Representable f32Fmt q) :
    (ilog2 q < -126 → ∃ n : Nat, n < 2 ^ 23 ∧ q = n * pow2 (-149)) ∧
    (-126 ≤ ilog2 q → ∃ n : Nat, 2 ^ 23 ≤ n ∧ n < 2 ^ 24 ∧ q = n * pow2 (ilog2 q - 23)) := by
  obtain ⟨m, k, hm, hk, rfl⟩ := h
  have hk' : -149 ≤ k := hk
  have hm' : m < 2 ^ 24 := hm
  obtain ⟨h1, h2⟩ := ilog2_spec hq
  generalize hE : ilog2 ((m : ℚ) * pow2 k) = E at *
  constructor
  · intro hlt
    refine ⟨m * 2 ^ (k + 149).toNat, ?_, ?_⟩
    · have h3 : (m : ℚ) * pow2 k < pow2 (-126) := lt_of_lt_of_le h2 (pow2_le (by omega))
      have h4 : pow2 k = 2 ^ (k + 149).toNat * pow2 (-149) := by
        rw [← pow2_natCast, ← pow2_add]; congr 1; omega
      have h5 : pow2 (-126) = 2 ^ 23 * pow2 (-149) := by
        rw [show (-126 : Int) = ((23 : Nat) : Int) + -149 by decide, pow2_add, pow2_natCast]
      rw [h4, h5, ← mul_assoc] at h3
      have := lt_of_mul_lt_mul_right h3 (pow2_pos _).le
      exact_mod_cast this
    · have h4 : pow2 k = 2 ^ (k + 149).toNat * pow2 (-149) := by
        rw [← pow2_natCast, ← pow2_add]; congr 1; omega
      rw [h4]; push_cast; ring
  · intro hge
    have hke : E - 23 ≤ k := by
      by_contra hn
      have h3 : pow2 E = 2 ^ (E - k).toNat * pow2 k := by
        rw [← pow2_natCast, ← pow2_add]; congr 1; omega
      rw [h3] at h1
      have h4 := le_of_mul_le_mul_right h1 (pow2_pos k)
      have h5 : 2 ^ (E - k).toNat ≤ m := by exact_mod_cast h4
      have : 2 ^ 24 ≤ 2 ^ (E - k).toNat := Nat.pow_le_pow_right (by decide) (by omega)
      omega
    have h4 : pow2 k = 2 ^ (k - (E - 23)).toNat * pow2 (E - 23) := by
      rw [← pow2_natCast, ← pow2_add]; congr 1; omega
    rw [h4, ← mul_assoc] at h1 h2
    refine ⟨m * 2 ^ (k - (E - 23)).toNat, ?_, ?_, ?_⟩
    · rw [show E = ((23 : Nat) : Int) + (E - 23) by omega, pow2_add, pow2_natCast] at h1
      rw [show ((23 : Nat) : Int) + (E - 23) = E by omega] at h1
      have := le_of_mul_le_mul_right h1 (pow2_pos _)
      exact_mod_cast this
    · rw [show E + 1 = ((24 : Nat) : Int) + (E - 23) by omega, pow2_add, pow2_natCast] at h2
      have := lt_of_mul_lt_mul_right h2 (pow2_pos _).le
      exact_mod_cast this
    · rw [h4]; push_cast; ring

theorem floor_natCast_mul (n : Nat) (e : Int) : ((n : ℚ) * pow2 e / pow2 e).floor.toNat = n := by
  rw [mul_div_cancel_right₀ _ (pow2_pos e).ne']
  have : ((n : ℚ)).floor = (n : Int) := by
    have := Rat.floor_intCast (n : Int)
    exact_mod_cast this
  rw [this]; simp

/-- `f32::from_bits (x.to_bits ()) == x`. -/
theorem ofBits_toBits {x : FVal} (h : IsF32 x) : FVal.ofBits32 x.toBits32 = x := by
  cases x with
  | nan => decide +kernel
  | inf s => cases s <;> decide +kernel
  | fin s q =>
    have hM : Mag32 q := h
    unfold FVal.toBits32
    dsimp only
    split
    · rename_i h0; subst h0
      cases s <;> decide +kernel
    · rename_i h0
      have hq : 0 < q := lt_of_le_of_ne hM.nonneg (Ne.symm h0)
      obtain ⟨hsub, hnorm⟩ := rep_multiple hq hM.rep
      split
      · rename_i hlt
        obtain ⟨n, hn, rfl⟩ := hsub hlt
        rw [floor_natCast_mul]
        obtain ⟨f1, f2, f3⟩ := fields s 0 n (by decide) hn
        simp only [Nat.zero_mul, Nat.add_zero] at f1 f2 f3
        unfold FVal.ofBits32
        dsimp only
        rw [f1, f2, f3]
        rw [if_neg (by decide), if_pos rfl]
      · rename_i hge
        obtain ⟨n, hn1, hn2, hqn⟩ := hnorm (by omega)
        have hE : ilog2 q < 128 := pow2_lt_iff.mp (lt_of_le_of_lt (ilog2_spec hq).1 hM.lt)
        have hfl : (q / pow2 (ilog2 q - 23)).floor.toNat = n := by
          conv_lhs => rw [show q / pow2 (ilog2 q - 23) = (n : ℚ) * pow2 (ilog2 q - 23) / pow2 (ilog2 q - 23) by rw [← hqn]]
          exact floor_natCast_mul _ _
        rw [hfl]
        obtain ⟨f1, f2, f3⟩ := fields s (ilog2 q + 127).toNat (n - 2 ^ 23) (by omega) (by omega)
        unfold FVal.ofBits32
        simp only [f1, f2, f3]
        rw [if_neg (by omega), if_neg (by omega)]
        rw [show (((ilog2 q + 127).toNat : Nat) : Int) - 150 = ilog2 q - 23 by omega]
        have hnn : 2 ^ 23 + (n - 2 ^ 23) = n := by omega
        rw [hnn, ← hqn]

theorem toBits_lt {x : FVal} (h : IsF32 x) : x.toBits32 < 2 ^ 32 := by
  cases x with
  | nan => decide
  | inf s => cases s <;> decide
  | fin s q =>
    have hM : Mag32 q := h
    unfold FVal.toBits32
    dsimp only
    have hs : s.toNat ≤ 1 := by cases s <;> decide
    split
    · omega
    · rename_i h0
      have hq : 0 < q := lt_of_le_of_ne hM.nonneg (Ne.symm h0)
      obtain ⟨hsub, hnorm⟩ := rep_multiple hq hM.rep
      split
      · rename_i hlt
        obtain ⟨n, hn, rfl⟩ := hsub hlt
        rw [floor_natCast_mul]
        omega
      · rename_i hge
        obtain ⟨n, hn1, hn2, hqn⟩ := hnorm (by omega)
        have hE : ilog2 q < 128 := pow2_lt_iff.mp (lt_of_le_of_lt (ilog2_spec hq).1 hM.lt)
        have hfl : (q / pow2 (ilog2 q - 23)).floor.toNat = n := by
          conv_lhs => rw [show q / pow2 (ilog2 q - 23) = (n : ℚ) * pow2 (ilog2 q - 23) / pow2 (ilog2 q - 23) by rw [← hqn]]
          exact floor_natCast_mul _ _
        rw [hfl]
        omega

/-- `f32::from_bits` is injective on the patterns that are not NaN. -/
theorem toBits_ofBits {b : Nat} (hb : b < 2 ^ 32) (hn : (FVal.ofBits32 b).isNan = false) :
    (FVal.ofBits32 b).toBits32 = b := by
  have hdec : ∃ (s : Bool) (e m : Nat), e < 256 ∧ m < 2 ^ 23 ∧ b = s.toNat * 2 ^ 31 + e * 2 ^ 23 + m := by
    refine ⟨decide (b / 2 ^ 31 = 1), b / 2 ^ 23 % 256, b % 2 ^ 23, by omega, by omega, ?_⟩
    by_cases h : b / 2 ^ 31 = 1
    · simp only [h, decide_true, Bool.toNat_true]; omega
    · simp only [h, decide_false, Bool.toNat_false]; omega
  obtain ⟨s, e, m, he, hm, rfl⟩ := hdec
  obtain ⟨f1, f2, f3⟩ := fields s e m he hm
  unfold FVal.ofBits32 at hn ⊢
  dsimp only at hn ⊢
  rw [f1, f2, f3] at hn ⊢
  by_cases h255 : e = 255
  · rw [if_pos h255] at hn ⊢
    by_cases hm0 : m = 0
    · rw [if_pos hm0]
      subst hm0 h255
      simp only [FVal.toBits32]
      omega
    · rw [if_neg hm0] at hn; simp [FVal.isNan] at hn
  · rw [if_neg h255]
    by_cases h0 : e = 0
    · rw [if_pos h0]
      subst h0
      unfold FVal.toBits32
      dsimp only
      by_cases hm0 : m = 0
      · subst hm0; rw [if_pos (by simp)]; omega
      · have hmpos : (0 : ℚ) < m := by exact_mod_cast Nat.pos_of_ne_zero hm0
        have hpos : 0 < (m : ℚ) * pow2 (-149) := mul_pos hmpos (pow2_pos _)
        rw [if_neg hpos.ne']
        have hlt : (m : ℚ) * pow2 (-149) < pow2 (-126) := by
          rw [show (-126 : Int) = ((23 : Nat) : Int) + -149 by decide, pow2_add, pow2_natCast]
          apply mul_lt_mul_of_pos_right _ (pow2_pos _)
          exact_mod_cast hm
        have := pow2_lt_iff.mp (lt_of_le_of_lt (ilog2_spec hpos).1 hlt)
        rw [if_pos this, floor_natCast_mul]
        omega
    · rw [if_neg h0]
      unfold FVal.toBits32
      dsimp only
      have hpos : 0 < ((2 ^ 23 + m : Nat) : ℚ) * pow2 ((e : Int) - 150) :=
        mul_pos (by exact_mod_cast (by omega : 0 < 2 ^ 23 + m)) (pow2_pos _)
      have hE : ilog2 (((2 ^ 23 + m : Nat) : ℚ) * pow2 ((e : Int) - 150)) = (e : Int) - 127 := by
        apply ilog2_unique
        · rw [show (e : Int) - 127 = ((23 : Nat) : Int) + (e - 150) by omega, pow2_add, pow2_natCast]
          apply mul_le_mul_of_nonneg_right _ (pow2_pos _).le
          exact_mod_cast (by omega : 2 ^ 23 ≤ 2 ^ 23 + m)
        · rw [show (e : Int) - 127 + 1 = ((24 : Nat) : Int) + (e - 150) by omega, pow2_add, pow2_natCast]
          apply mul_lt_mul_of_pos_right _ (pow2_pos _)
          exact_mod_cast (by omega : 2 ^ 23 + m < 2 ^ 24)
      rw [if_neg hpos.ne', hE, if_neg (by omega),
        show (e : Int) - 127 - 23 = (e : Int) - 150 by omega, floor_natCast_mul,
        show ((e : Int) - 127 + 127).toNat = e by omega]
      omega

end ModelarDB.Lemmas
