import Verif.Lemmas.PmcMean
import Verif.Lemmas.FloatBits
/-
C06: constant models respect the error bound.

A run of values is given by bit patterns; `acceptAll PMCMean.fitValue (PMCMean.new eb)` offers them in
order to the constant model and is `some p` if all are accepted. The model stores
`p.model.toBits32`, which `pmcMeanGrid` repeats when the segment is read.
-/
namespace ModelarDB.Props
open Model Spec Lemmas

/-- **C06** for lossless and absolute error bounds: the stored value passes the error-bound check
against every accepted value. -/
theorem C06_constant_model_passes_check_partial (eb : ErrorBound) (hvalid : ValidErrorBound eb)
    (hnrel : ∀ r, eb ≠ .relative r) (values : List Nat) (p : PMCMean)
    (h : acceptAll PMCMean.fitValue (PMCMean.new eb) (values.map FVal.ofBits32) = some p) :
    ∀ v ∈ values, ∀ w ∈ pmcMeanGrid p.model.toBits32 values.length,
      isValueWithinErrorBound eb (FVal.ofBits32 v) (FVal.ofBits32 w) = true := by
  intro v hv w hw
  have hvs : ∀ v ∈ values.map FVal.ofBits32, IsF32 v := by
    intro v hv; obtain ⟨b, _, rfl⟩ := List.mem_map.mp hv; exact isF32_ofBits b
  rw [(List.mem_replicate.mp hw).2, ofBits_toBits (pmc_model_isF32 eb _ hvs p h)]
  have hinv := pmcFitAll_inv eb _ p h
  have hmem : FVal.ofBits32 v ∈ values.map FVal.ofBits32 := List.mem_map_of_mem hv
  have hne : values.map FVal.ofBits32 ≠ [] := List.ne_nil_of_mem hmem
  obtain ⟨w1, w2⟩ := hinv.within hne
  rcases pmc_nan eb hvalid _ p hinv with ⟨h1, h2⟩ | h1
  · rw [h1 _ hmem, h2 hne]
    rcases valid_cases hvalid with rfl | ⟨b, _, _, rfl⟩ | ⟨p, _, _, _, rfl⟩ <;> rfl
  · rcases hinv.isMin with ⟨_, h3⟩ | ⟨m0, _, m1⟩
    · exact absurd (h3 _ hmem) (by rw [h1 _ hmem]; decide)
    rcases hinv.isMax with ⟨_, h3⟩ | ⟨_, _, m2⟩
    · exact absurd (h3 _ hmem) (by rw [h1 _ hmem]; decide)
    exact check_between eb hvalid hnrel m0 (m1 _ hmem (h1 _ hmem)) (m2 _ hmem (h1 _ hmem)) w1 w2

/-- **C06** in exact arithmetic, for all error bounds except relative ones below `2 ^ -100` percent
and above `99.9999` percent. -/
theorem C06_constant_model_within_bound_partial (eb : ErrorBound) (hvalid : ValidErrorBound eb)
    (hrel : ∀ s r, eb = .relative (.fin s r) → (2 : ℚ) ^ (-100 : ℤ) ≤ r ∧ r ≤ 99.9999)
    (values : List Nat) (p : PMCMean)
    (h : acceptAll PMCMean.fitValue (PMCMean.new eb) (values.map FVal.ofBits32) = some p) :
    ∀ v ∈ values, ∀ w ∈ pmcMeanGrid p.model.toBits32 values.length,
      WithinExact eb (FVal.ofBits32 v) (FVal.ofBits32 w) := by
  intro v hv w hw
  have hvs : ∀ v ∈ values.map FVal.ofBits32, IsF32 v := by
    intro v hv; obtain ⟨b, _, rfl⟩ := List.mem_map.mp hv; exact isF32_ofBits b
  have hmodel := pmc_model_isF32 eb _ hvs p h
  rw [(List.mem_replicate.mp hw).2, ofBits_toBits hmodel]
  have hinv := pmcFitAll_inv eb _ p h
  have hmem : FVal.ofBits32 v ∈ values.map FVal.ofBits32 := List.mem_map_of_mem hv
  have hne : values.map FVal.ofBits32 ≠ [] := List.ne_nil_of_mem hmem
  obtain ⟨w1, w2⟩ := hinv.within hne
  have hrel1 : ∀ s r, eb = .relative (.fin s r) → (2 : ℚ) ^ (-100 : ℤ) ≤ r := fun s r e => (hrel s r e).1
  rcases pmc_nan eb hvalid _ p hinv with ⟨h1, h2⟩ | h1
  · rw [h1 _ hmem, h2 hne]
    rcases valid_cases hvalid with rfl | ⟨b, _, _, rfl⟩ | ⟨p, _, _, _, rfl⟩ <;> trivial
  · rcases hinv.isMin with ⟨_, h3⟩ | ⟨m0, hm, m1⟩
    · exact absurd (h3 _ hmem) (by rw [h1 _ hmem]; decide)
    rcases hinv.isMax with ⟨_, h3⟩ | ⟨_, hM, m2⟩
    · exact absurd (h3 _ hmem) (by rw [h1 _ hmem]; decide)
    refine within_between eb hvalid ?_ m0 (m1 _ hmem (h1 _ hmem)) (m2 _ hmem (h1 _ hmem))
      (check_sound eb hvalid hrel1 (hvs _ hm) hmodel w1) (check_sound eb hvalid hrel1 (hvs _ hM) hmodel w2)
    intro s r e
    have := (hrel s r e).2
    norm_num at this ⊢
    linarith

/-- `0.5, 0.75, 1` is accepted with the absolute error bound `0.25`. -/
example : ∃ p, acceptAll PMCMean.fitValue (PMCMean.new (.absolute (FVal.ofBits32 0x3e800000)))
    ([0x3f000000, 0x3f400000, 0x3f800000].map FVal.ofBits32) = some p ∧ p.model = .fin false (3 / 4) := by
  refine ⟨⟨.absolute (FVal.ofBits32 0x3e800000), .fin false (1 / 2), .fin false 1, .fin false (9 / 4), 3⟩, ?_, ?_⟩ <;>
    decide +kernel

/-- `100, 101, 99.5` is accepted with a relative error bound of 1 percent. -/
example : ∃ p, acceptAll PMCMean.fitValue (PMCMean.new (.relative (FVal.ofBits32 0x3f800000)))
    ([0x42c80000, 0x42ca0000, 0x42c70000].map FVal.ofBits32) = some p ∧ p.length = 3 := by
  refine ⟨⟨.relative (FVal.ofBits32 0x3f800000), .fin false (199 / 2), .fin false 101, .fin false (601 / 2), 3⟩, ?_, ?_⟩ <;>
    decide +kernel

/-- **C06** is false for relative error bounds of 100 percent: the values `-1`, `1 + 2 ^ -23` and `0`
are accepted, and the stored value is about `4e-8` although the relative error at `0` is then
infinite. -/
theorem C06_constant_model_out_of_bound :
    ∃ (eb : ErrorBound) (values : List Nat) (p : PMCMean), ValidErrorBound eb ∧
      acceptAll PMCMean.fitValue (PMCMean.new eb) (values.map FVal.ofBits32) = some p ∧
      ∃ v ∈ values, ∃ w ∈ pmcMeanGrid p.model.toBits32 values.length,
        isValueWithinErrorBound eb (FVal.ofBits32 v) (FVal.ofBits32 w) = false ∧
        ¬ WithinExact eb (FVal.ofBits32 v) (FVal.ofBits32 w) := by
  refine ⟨.relative (FVal.ofBits32 0x42c80000), [0xbf800000, 0x3f800001, 0],
    ⟨.relative (FVal.ofBits32 0x42c80000), .fin true 1, .fin false (8388609 / 8388608), .fin false (1 / 8388608), 3⟩,
    Or.inr ⟨0x42c80000, by decide, Or.inr (by decide +kernel)⟩, by decide +kernel, 0, by simp, 0x332aaaab, ?_, ?_, ?_⟩
  · decide +kernel
  · decide +kernel
  · rw [show FVal.ofBits32 0x42c80000 = .fin false 100 by decide +kernel,
      show FVal.ofBits32 0 = .fin false 0 by decide +kernel,
      show FVal.ofBits32 0x332aaaab = .fin false (11184811 / 281474976710656) by decide +kernel]
    simp only [WithinExact, ratOf]
    norm_num

end ModelarDB.Props
