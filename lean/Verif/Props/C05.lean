import Verif.Lemmas.MacaqueVBound
import Verif.Lemmas.Within
/-
C05: the XOR codec stays within the error bound.

The property is false as stated: when the error bound is more than about `2 ^ 23` times smaller than
the value, the shift count of the mask becomes negative, is taken modulo 32 and exponent bits are
cleared (`C05_xor_out_of_bound`). What does hold is proved in the `_partial` theorems: the property
for values that are zero, infinite, NaN or normal numbers not larger than `2 ^ 22` times an absolute
error bound, and for relative error bounds of at least `2 ^ -16` percent and values that are not
below `2 ^ -102`.
-/
namespace ModelarDB.Props
open Model Spec Lemmas

/-- Values for which the codec respects the error bound. -/
def XorGuard : ErrorBound → FVal → Prop
  | .lossless, _ => True
  | .absolute (.fin _ b), .fin _ q => q = 0 ∨ ((2 : ℚ) ^ (-126 : ℤ) ≤ q ∧ q ≤ 2 ^ 22 * b)
  | .relative (.fin _ p), .fin _ q => q = 0 ∨ ((2 : ℚ) ^ (-102 : ℤ) ≤ q ∧ (2 : ℚ) ^ (-16 : ℤ) ≤ p)
  | _, _ => True

theorem rewrite_within {log2 : Log2} (hlog : Log2Accurate log2) {eb : ErrorBound}
    (hvalid : ValidErrorBound eb) {v : Nat} (hv : v < 2 ^ 32) (hg : XorGuard eb (FVal.ofBits32 v))
    (hl : eb ≠ .lossless) :
    isValueWithinErrorBound eb (FVal.ofBits32 v)
      (FVal.ofBits32 (rewriteLeastMantissaBits log2 eb v)) = true := by
  have hspecial : ((FVal.ofBits32 v).abs.eq (.fin false 0) || (FVal.ofBits32 v).isNan ||
      (FVal.ofBits32 v).isInfinite) = true → rewriteLeastMantissaBits log2 eb v = v := by
    intro h
    unfold rewriteLeastMantissaBits
    simp only [h, if_true]
  cases hq : FVal.ofBits32 v with
  | nan => rw [hspecial (by simp [hq, FVal.isNan]), hq]; exact within_self _ _
  | inf s => rw [hspecial (by simp [hq, FVal.isInfinite]), hq]; exact within_self _ _
  | fin s q =>
    by_cases h0 : q = 0
    · rw [hspecial (by simp [hq, h0, FVal.abs, FVal.eq, FVal.signed]), hq]; exact within_self _ _
    · rw [hq] at hg
      rcases valid_cases hvalid with h | ⟨b, hb, _, rfl⟩ | ⟨p, hp, _, hp100, rfl⟩
      · exact absurd h hl
      · rcases hg with h | ⟨g1, g2⟩
        · exact absurd h h0
        · rw [← pow2_eq] at g1
          obtain ⟨x, hn⟩ := normal_of_ge hv hq g1
          exact rewrite_absolute hlog hb hn (by rw [pow2_eq]; exact_mod_cast g2)
      · rcases hg with h | ⟨g1, g2⟩
        · exact absurd h h0
        · rw [← pow2_eq] at g1 g2
          obtain ⟨x, hn⟩ := normal_of_ge hv hq (le_trans (pow2_le (by decide)) g1)
          have := pow2_lt_iff.mp (lt_of_le_of_lt g1 hn.hi)
          exact rewrite_relative hlog hp g2 hp100 hn (by omega)

theorem stored_within {log2 : Log2} (hlog : Log2Accurate log2) {eb : ErrorBound}
    (hvalid : ValidErrorBound eb) {values : List Nat} {last : Nat} (h32 : ∀ v ∈ values, v < 2 ^ 32)
    (hg : ∀ v ∈ values, XorGuard eb (FVal.ofBits32 v)) :
    List.Forall₂ (fun v d => isValueWithinErrorBound eb (FVal.ofBits32 v) (FVal.ofBits32 d) = true)
      values (storedValues log2 eb last values) := by
  induction values generalizing last with
  | nil => exact .nil
  | cons v vs ih =>
    refine .cons ?_ (ih (fun x hx => h32 x (by simp [hx])) (fun x hx => hg x (by simp [hx])))
    unfold storedValue
    split
    · exact within_self _ _
    · rename_i hl
      split
      · assumption
      · exact rewrite_within hlog hvalid (h32 v (by simp)) (hg v (by simp)) hl

/-- **C05**, segments (partial: only for values that satisfy `XorGuard`). Every decoded value is within
the error bound of the value that was ingested. -/
theorem C05_xor_within_bound_segment_partial (log2 : Log2) (hlog : Log2Accurate log2) (eb : ErrorBound)
    (hvalid : ValidErrorBound eb) (values : List Nat) (hne : values ≠ []) (h32 : ∀ v ∈ values, v < 2 ^ 32)
    (hg : ∀ v ∈ values, XorGuard eb (FVal.ofBits32 v)) :
    ∃ decoded,
      macaqueVGrid ((MacaqueV.new eb).compressValues log2 values).model.1 values.length none = some decoded ∧
      List.Forall₂ (fun v d => isValueWithinErrorBound eb (FVal.ofBits32 v) (FVal.ofBits32 d) = true)
        values decoded := by
  cases values with
  | nil => exact absurd rfl hne
  | cons v vs =>
    refine ⟨_, segment_roundtrip log2 eb v vs (h32 v (by simp)) (fun x hx => h32 x (by simp [hx])), ?_⟩
    exact .cons (within_self _ _)
      (stored_within hlog hvalid (fun x hx => h32 x (by simp [hx])) (fun x hx => hg x (by simp [hx])))

/-- **C05**, residuals (partial: only for values that satisfy `XorGuard`). -/
theorem C05_xor_within_bound_residuals_partial (log2 : Log2) (hlog : Log2Accurate log2) (eb : ErrorBound)
    (hvalid : ValidErrorBound eb) (values : List Nat) (last : Nat) (hne : values ≠ []) (hlast : last < 2 ^ 32)
    (h32 : ∀ v ∈ values, v < 2 ^ 32) (hg : ∀ v ∈ values, XorGuard eb (FVal.ofBits32 v)) :
    ∃ decoded,
      macaqueVGrid ((MacaqueV.new eb).compressValuesWithoutFirst log2 values last).model.1 values.length
        (some last) = some decoded ∧
      List.Forall₂ (fun v d => isValueWithinErrorBound eb (FVal.ofBits32 v) (FVal.ofBits32 d) = true)
        values decoded :=
  ⟨_, residuals_roundtrip log2 eb values last hne hlast h32, stored_within hlog hvalid h32 hg⟩

/-! ### The hypotheses can be met -/

/-- An exact logarithm. -/
def exactLog2 : Log2
  | .fin _ q => if q ≤ 1 then (if q = pow2 (ilog2 q) then -ilog2 q else -ilog2 q - 1) else ilog2 q
  | _ => 0

theorem exactLog2_accurate : Log2Accurate exactLog2 := by
  intro q hq
  obtain ⟨h1, h2⟩ := ilog2_spec hq
  constructor
  · intro h
    simp only [exactLog2, if_pos h, ← pow2_eq]
    split
    · rename_i he
      constructor
      · exact lt_of_lt_of_le (pow2_lt (by omega)) h1
      · exact lt_of_lt_of_le h2 (pow2_le (by omega))
    · rename_i he
      constructor
      · exact lt_of_eq_of_lt (by congr 1; ring) (lt_of_le_of_ne h1 (Ne.symm he))
      · exact lt_trans h2 (pow2_lt (by omega))
  · intro h
    have hk : exactLog2 (.fin false q) = ilog2 q := by
      simp only [exactLog2]
      rcases h.lt_or_eq with h | h
      · rw [if_neg (by linarith)]
      · subst h; decide +kernel
    rw [hk, ← pow2_eq, ← pow2_eq]
    exact ⟨lt_of_lt_of_le (pow2_lt (by omega)) h1, h2⟩

/-- An absolute error bound of 0.5 and the values 1000.1, NaN, 1000.9, -3.75, 0 and infinity. -/
example : ∃ decoded,
    macaqueVGrid ((MacaqueV.new (.absolute (.fin false (1 / 2)))).compressValues exactLog2
      [0x447a0666, 0x7fc00000, 0x447a399a, 0xc0700000, 0, 0x7f800000]).model.1 6 none = some decoded ∧
    List.Forall₂ (fun v d => isValueWithinErrorBound (.absolute (.fin false (1 / 2)))
      (FVal.ofBits32 v) (FVal.ofBits32 d) = true)
      [0x447a0666, 0x7fc00000, 0x447a399a, 0xc0700000, 0, 0x7f800000] decoded := by
  refine C05_xor_within_bound_segment_partial exactLog2 exactLog2_accurate _ ?_ _ (by decide) (by decide) ?_
  · exact Or.inr ⟨0x3f000000, by decide, Or.inl (by decide +kernel)⟩
  · intro v hv
    simp only [List.mem_cons, List.not_mem_nil, or_false] at hv
    rcases hv with rfl | rfl | rfl | rfl | rfl | rfl
    · rw [show FVal.ofBits32 0x447a0666 = .fin false (8192819 / 8192) by decide +kernel]
      exact Or.inr (by norm_num)
    · rw [show FVal.ofBits32 0x7fc00000 = .nan by decide +kernel]; trivial
    · rw [show FVal.ofBits32 0x447a399a = .fin false (8199373 / 8192) by decide +kernel]
      exact Or.inr (by norm_num)
    · rw [show FVal.ofBits32 0xc0700000 = .fin true (15 / 4) by decide +kernel]
      exact Or.inr (by norm_num)
    · rw [show FVal.ofBits32 0 = .fin false 0 by decide +kernel]; exact Or.inl rfl
    · rw [show FVal.ofBits32 0x7f800000 = .inf false by decide +kernel]; trivial

/-- A relative error bound of 1 percent and residuals 1.01 and 1.03 after a model ending in 1.0. -/
example : ∃ decoded,
    macaqueVGrid ((MacaqueV.new (.relative (.fin false 1))).compressValuesWithoutFirst exactLog2
      [0x3f814000, 0x3f83c000] 0x3f800000).model.1 2 (some 0x3f800000) = some decoded ∧
    List.Forall₂ (fun v d => isValueWithinErrorBound (.relative (.fin false 1))
      (FVal.ofBits32 v) (FVal.ofBits32 d) = true) [0x3f814000, 0x3f83c000] decoded := by
  refine C05_xor_within_bound_residuals_partial exactLog2 exactLog2_accurate _ ?_ _ _ (by decide)
    (by decide) (by decide) ?_
  · exact Or.inr ⟨0x3f800000, by decide, Or.inr (by decide +kernel)⟩
  · intro v hv
    simp only [List.mem_cons, List.not_mem_nil, or_false] at hv
    rcases hv with rfl | rfl
    · rw [show FVal.ofBits32 0x3f814000 = .fin false (517 / 512) by decide +kernel]
      exact Or.inr (by norm_num)
    · rw [show FVal.ofBits32 0x3f83c000 = .fin false (527 / 512) by decide +kernel]
      exact Or.inr (by norm_num)

/-! ### Negation -/

/-- The quotient of the allowed deviation of the absolute error bound 0.01 and `2 ^ 19`. -/
def witnessEpsilon : FVal :=
  FVal.div f32Fmt ((maximumAllowedDeviation (.absolute (FVal.ofBits32 0x3c23d70a)) (FVal.ofBits32 0x49742400)).convert
    f32Fmt) (.fin false (pow2 19))

/-- **C05, negation.** With the absolute error bound 0.01 (`0x3c23d70a`) the second value of the series
0, 1000000 (`0x49742400`) is read back as 2 (`0x40000000`), whatever accurate logarithm is used. -/
theorem C05_xor_out_of_bound (log2 : Log2) (hlog : Log2Accurate log2) :
    ErrorBound.tryNewAbsolute (FVal.ofBits32 0x3c23d70a) = some (.absolute (FVal.ofBits32 0x3c23d70a)) ∧
    macaqueVGrid ((MacaqueV.new (.absolute (FVal.ofBits32 0x3c23d70a))).compressValues log2
      [0, 0x49742400]).model.1 2 none = some [0, 0x40000000] ∧
    isValueWithinErrorBound (.absolute (FVal.ofBits32 0x3c23d70a)) (FVal.ofBits32 0x49742400)
      (FVal.ofBits32 0x40000000) = false := by
  refine ⟨by decide +kernel, ?_, by decide +kernel⟩
  have := segment_roundtrip log2 (.absolute (FVal.ofBits32 0x3c23d70a)) 0 [0x49742400] (by decide) (by decide)
  refine this.trans ?_
  have hE : witnessEpsilon = .fin false (2657511 / 140737488355328) := by decide +kernel
  have hk : log2 witnessEpsilon = 25 ∨ log2 witnessEpsilon = 26 := by
    rw [hE]
    obtain ⟨c1, c2⟩ := (hlog (2657511 / 140737488355328) (by norm_num)).1 (by norm_num)
    rw [← pow2_eq] at c1 c2
    have a1 := pow2_lt_iff.mp (lt_trans c1 (by decide +kernel : _ < pow2 (-25)))
    have a2 := pow2_lt_iff.mp (lt_trans (by decide +kernel : pow2 (-26) < _) c2)
    omega
  have hmain : ∀ k : Int, (k = 25 ∨ k = 26) → log2 witnessEpsilon = k →
      rewriteLeastMantissaBits log2 (.absolute (FVal.ofBits32 0x3c23d70a)) 0x49742400 = 0x40000000 := by
    intro k hk2 hk
    unfold rewriteLeastMantissaBits
    have h1 : ((FVal.ofBits32 0x49742400).abs.eq (.fin false 0) || (FVal.ofBits32 0x49742400).isNan ||
      (FVal.ofBits32 0x49742400).isInfinite) = false := by decide +kernel
    have h2 : getExponent 0x49742400 = 19 := by decide
    unfold witnessEpsilon at hk
    simp only [h1, h2, hk, Bool.false_eq_true, if_false]
    rcases hk2 with rfl | rfl
    · decide +kernel
    · decide +kernel
  have hs : storedValue log2 (.absolute (FVal.ofBits32 0x3c23d70a)) 0 0x49742400 = 0x40000000 := by
    unfold storedValue
    have hn : isValueWithinErrorBound (.absolute (FVal.ofBits32 0x3c23d70a)) (FVal.ofBits32 0x49742400)
      (FVal.ofBits32 0) = false := by decide +kernel
    simp only [hn, Bool.false_eq_true, if_false]
    rcases hk with h | h
    · exact hmain 25 (Or.inl rfl) h
    · exact hmain 26 (Or.inr rfl) h
  simp only [storedValues, hs]

end ModelarDB.Props
