import Verif.Lemmas.Within
/-
C51: the check of error bounds means what it says.
-/
namespace ModelarDB.Props
open Model Spec Lemmas

/-- **C51.** If the floating-point check accepts a value, it is within the error bound in exact
arithmetic, up to the relative rounding error of the check. Relative error bounds below
`2 ^ -100` percent are excluded. -/
theorem C51_check_sound (eb : ErrorBound) (hvalid : ValidErrorBound eb)
    (hrel : ∀ s r, eb = .relative (.fin s r) → (2 : ℚ) ^ (-100 : ℤ) ≤ r) (v w : Nat)
    (h : isValueWithinErrorBound eb (FVal.ofBits32 v) (FVal.ofBits32 w) = true) :
    WithinExact eb (FVal.ofBits32 v) (FVal.ofBits32 w) :=
  check_sound eb hvalid hrel (isF32_ofBits v) (isF32_ofBits w) h

/-- **C51**, converse for absolute error bounds: a value within the bound in exact arithmetic is
accepted. -/
theorem C51_check_complete_absolute (b v w : Nat) (eb : ErrorBound)
    (heb : ErrorBound.tryNewAbsolute (FVal.ofBits32 b) = some eb) (s t u : Bool) (p q r : ℚ)
    (hb : FVal.ofBits32 b = .fin u r) (hv : FVal.ofBits32 v = .fin s p) (hw : FVal.ofBits32 w = .fin t q)
    (h : |ratOf s p - ratOf t q| ≤ r) :
    isValueWithinErrorBound eb (FVal.ofBits32 v) (FVal.ofBits32 w) = true := by
  unfold ErrorBound.tryNewAbsolute at heb
  split at heb
  · cases heb
  · rename_i hc
    injection heb with heb
    subst heb
    have hm := mag32_ofBits b hb
    rw [hb] at hc ⊢
    have hu : u = false := by
      cases u
      · rfl
      · rw [Bool.or_eq_true, le_fin] at hc
        simp [FVal.isFinite, FVal.signed] at hc
        have := hm.nonneg
        linarith
    subst hu
    rw [hv, hw]
    exact check_absolute_complete hm h

/-- 1.25 is accepted for 1 with the absolute error bound 0.25. -/
example : |ratOf false 1 - ratOf false (5 / 4)| ≤ (1 / 4 : ℚ) * (1 + 1 / 2 ^ 23) := by
  have := C51_check_sound (.absolute (FVal.ofBits32 0x3e800000))
    (Or.inr ⟨0x3e800000, by decide, Or.inl (by decide +kernel)⟩) (by rintro s r ⟨⟩) 0x3f800000 0x3fa00000
    (by decide +kernel)
  rw [show FVal.ofBits32 0x3e800000 = .fin false (1 / 4) by decide +kernel,
    show FVal.ofBits32 0x3f800000 = .fin false 1 by decide +kernel,
    show FVal.ofBits32 0x3fa00000 = .fin false (5 / 4) by decide +kernel] at this
  exact this

/-- 101 is accepted for 100 with a relative error bound of 1 percent. -/
example : WithinExact (.relative (FVal.ofBits32 0x3f800000)) (FVal.ofBits32 0x42c80000) (FVal.ofBits32 0x42ca0000) :=
  C51_check_sound _ (Or.inr ⟨0x3f800000, by decide, Or.inr (by decide +kernel)⟩)
    (by
      rw [show FVal.ofBits32 0x3f800000 = .fin false 1 by decide +kernel]
      rintro s r h
      cases h
      norm_num) _ _ (by decide +kernel)

example : isValueWithinErrorBound (.absolute (FVal.ofBits32 0x3e800000)) (FVal.ofBits32 0x3f800000)
    (FVal.ofBits32 0x3fa00000) = true :=
  C51_check_complete_absolute 0x3e800000 0x3f800000 0x3fa00000 _ (by decide +kernel) false false false 1 (5 / 4) (1 / 4)
    (by decide +kernel) (by decide +kernel) (by decide +kernel) (by decide +kernel)

end ModelarDB.Props
