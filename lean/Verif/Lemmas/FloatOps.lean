import Verif.Lemmas.Float
/-
Lemmas about the operations on `FVal`.
-/
namespace ModelarDB.Lemmas
open Model

/-! ### Rounding -/

/-- In the normal range the relative error of rounding is at most half a unit in the last place. -/
theorem roundMag_rel {fmt : Fmt} {q : ℚ} (hq : 0 < q) (hn : fmt.emin ≤ ilog2 q - (fmt.prec - 1)) :
    |roundMag fmt q - q| ≤ q * pow2 (-(fmt.prec : Int)) := by
  refine le_trans (roundMag_error hq) ?_
  have hl : lastPlace fmt q = ilog2 q + (-(fmt.prec : Int) + 1) := by
    unfold lastPlace; rw [max_eq_left hn]; ring
  rw [hl, pow2_add, pow2_succ]
  have := (ilog2_spec hq).1
  have hp := pow2_pos (-(fmt.prec : Int))
  nlinarith

theorem roundMag_le {fmt : Fmt} (hprec : 1 ≤ fmt.prec) {p q : ℚ} (hp : 0 ≤ p) (h : p ≤ q)
    (hq : Representable fmt q) : roundMag fmt p ≤ q := by
  have := roundMag_mono hprec hp h
  rwa [roundMag_exact hq] at this

theorem le_roundMag {fmt : Fmt} (hprec : 1 ≤ fmt.prec) {p q : ℚ} (hp : 0 ≤ p) (h : p ≤ q)
    (hr : Representable fmt p) : p ≤ roundMag fmt q := by
  have := roundMag_mono hprec hp h
  rwa [roundMag_exact hr] at this

theorem representable_pow2 {fmt : Fmt} (hprec : 1 ≤ fmt.prec) {e : Int} (he : fmt.emin ≤ e) :
    Representable fmt (pow2 e) := by
  refine ⟨1, e, ?_, he, by simp⟩
  have := Nat.pow_le_pow_right (by decide : 2 > 0) hprec
  omega

/-- A magnitude of binary32. -/
structure Mag32 (q : ℚ) : Prop where
  nonneg : 0 ≤ q
  rep : Representable f32Fmt q
  lt : q < pow2 128

theorem round_of_lt {fmt : Fmt} {s : Bool} {q : ℚ} (h : roundMag fmt q < pow2 fmt.emax) :
    FVal.round fmt s q = .fin s (roundMag fmt q) := by
  unfold FVal.round
  simp only [if_neg (not_le.mpr h)]

theorem round_mag32 {s : Bool} {q : ℚ} (h : Mag32 q) : FVal.round f32Fmt s q = .fin s q := by
  have := roundMag_exact h.rep
  rw [round_of_lt (by rw [this]; exact h.lt), this]

theorem mag32_zero : Mag32 0 := ⟨le_refl _, ⟨0, 0, by decide, by decide, by simp⟩, pow2_pos _⟩

theorem mag32_ofBits (b : Nat) {s : Bool} {q : ℚ} (h : FVal.ofBits32 b = .fin s q) : Mag32 q := by
  unfold FVal.ofBits32 at h
  dsimp only at h
  have hm : b % 2 ^ 23 < 2 ^ 23 := Nat.mod_lt _ (by decide)
  have he : b / 2 ^ 23 % 256 < 256 := Nat.mod_lt _ (by decide)
  split at h
  · split at h <;> cases h
  · rename_i h255
    split at h
    · injection h with _ h; subst h
      have hp := pow2_pos (-149)
      refine ⟨by positivity, ⟨b % 2 ^ 23, -149, ?_, by decide, rfl⟩, ?_⟩
      · simp [f32Fmt]; omega
      · have h1 : ((b % 2 ^ 23 : Nat) : ℚ) < pow2 23 := by
          have : ((b % 2 ^ 23 : Nat) : ℚ) < ((2 ^ 23 : Nat) : ℚ) := by exact_mod_cast hm
          have e : pow2 23 = ((2 ^ 23 : Nat) : ℚ) := by rw [pow2_eq]; norm_num
          rwa [e]
        calc _ < pow2 23 * pow2 (-149) := by exact mul_lt_mul_of_pos_right h1 hp
          _ = pow2 (23 + -149) := (pow2_add _ _).symm
          _ < _ := pow2_lt (by decide)
    · injection h with _ h; subst h
      have hp := pow2_pos (((b / 2 ^ 23 % 256 : Nat) : Int) - 150)
      refine ⟨by positivity, ⟨2 ^ 23 + b % 2 ^ 23, _, ?_, ?_, rfl⟩, ?_⟩
      · simp [f32Fmt]; omega
      · simp [f32Fmt]; omega
      · have h1 : ((2 ^ 23 + b % 2 ^ 23 : Nat) : ℚ) < pow2 24 := by
          have : ((2 ^ 23 + b % 2 ^ 23 : Nat) : ℚ) < ((2 ^ 24 : Nat) : ℚ) := by exact_mod_cast (by omega)
          have e : pow2 24 = ((2 ^ 24 : Nat) : ℚ) := by rw [pow2_eq]; norm_num
          rwa [e]
        calc _ < pow2 24 * pow2 (((b / 2 ^ 23 % 256 : Nat) : Int) - 150) := mul_lt_mul_of_pos_right h1 hp
          _ = pow2 (24 + (((b / 2 ^ 23 % 256 : Nat) : Int) - 150)) := (pow2_add _ _).symm
          _ ≤ _ := pow2_le (by omega)

/-- Subtracting numbers of the same sign, the second one not larger. -/
theorem sub_fin_same (s : Bool) {p q : ℚ} (hq : 0 ≤ q) (hqp : q ≤ p) (hp : Mag32 p) :
    ∃ t, FVal.sub f32Fmt (.fin s p) (.fin s q) = .fin t (roundMag f32Fmt (p - q)) ∧
      roundMag f32Fmt (p - q) ≤ p := by
  have hle : roundMag f32Fmt (p - q) ≤ p := roundMag_le (by decide) (by linarith) (by linarith) hp.rep
  have hlt : roundMag f32Fmt (p - q) < pow2 f32Fmt.emax := lt_of_le_of_lt hle hp.lt
  have : FVal.sub f32Fmt (.fin s p) (.fin s q) =
      FVal.ofRat f32Fmt (s && !s) (FVal.signed s p + FVal.signed (!s) q) := rfl
  rw [this]
  unfold FVal.ofRat
  rcases hqp.lt_or_eq with h | h
  swap
  · subst h
    refine ⟨s && !s, ?_, hle⟩
    have h0 : FVal.signed s q + FVal.signed (!s) q = 0 := by
      cases s <;> simp [FVal.signed]
    simp [h0, roundMag_zero]
  · cases s
    · refine ⟨false, ?_, hle⟩
      have e : FVal.signed false p + FVal.signed (!false) q = p - q := by simp [FVal.signed]; ring
      rw [e, if_neg (by linarith), if_neg (by linarith), round_of_lt hlt]
    · refine ⟨true, ?_, hle⟩
      have e : FVal.signed true p + FVal.signed (!true) q = -(p - q) := by simp [FVal.signed]; ring
      rw [e, if_neg (by linarith), if_pos (by linarith), neg_neg, round_of_lt hlt]

theorem le_fin {s t : Bool} {p q : ℚ} :
    (FVal.fin s p).le (.fin t q) = true ↔ FVal.signed s p ≤ FVal.signed t q := by
  simp only [FVal.le, FVal.lt, FVal.eq, Bool.or_eq_true, decide_eq_true_eq]
  exact le_iff_lt_or_eq.symm

theorem le_fin_pos {p q : ℚ} : (FVal.fin false p).le (.fin false q) = true ↔ p ≤ q := by
  rw [le_fin]; simp [FVal.signed]

end ModelarDB.Lemmas
