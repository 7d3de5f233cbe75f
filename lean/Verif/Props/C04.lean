import Verif.Lemmas.MacaqueV
/-
C04: the XOR codec is lossless.
-/
namespace ModelarDB.Props
open Model Lemmas

/-- **C04**, values stored in a segment of their own: the first value is stored explicitly. Every
list of 32-bit patterns comes back unchanged. -/
theorem C04_xor_lossless_segment (log2 : Log2) (values : List Nat) (hne : values ≠ [])
    (h32 : ∀ v ∈ values, v < 2 ^ 32) :
    macaqueVGrid ((MacaqueV.new .lossless).compressValues log2 values).model.1 values.length none =
      some values := by
  cases values with
  | nil => exact absurd rfl hne
  | cons v vs =>
    have := segment_roundtrip log2 .lossless v vs (h32 v (by simp)) (fun x hx => h32 x (by simp [hx]))
    rwa [storedValues_lossless] at this

/-- **C04**, residuals: the values follow another model whose last value is `last`. -/
theorem C04_xor_lossless_residuals (log2 : Log2) (values : List Nat) (last : Nat) (hne : values ≠ [])
    (hlast : last < 2 ^ 32) (h32 : ∀ v ∈ values, v < 2 ^ 32) :
    macaqueVGrid ((MacaqueV.new .lossless).compressValuesWithoutFirst log2 values last).model.1
      values.length (some last) = some values := by
  have := residuals_roundtrip log2 .lossless values last hne hlast h32
  rwa [storedValues_lossless] at this

/-- NaNs with payload, infinities, signed zeros, a subnormal and ordinary numbers. -/
example (log2 : Log2) :
    macaqueVGrid ((MacaqueV.new .lossless).compressValues log2
      [0x7fc00001, 0xff800000, 0x80000000, 0, 1, 0x3f800000, 0x3f800000, 0x3f800001, 0xffffffff]).model.1 9 none =
    some [0x7fc00001, 0xff800000, 0x80000000, 0, 1, 0x3f800000, 0x3f800000, 0x3f800001, 0xffffffff] :=
  C04_xor_lossless_segment log2 _ (by decide) (by decide)

example (log2 : Log2) :
    macaqueVGrid ((MacaqueV.new .lossless).compressValuesWithoutFirst log2
      [0x3f800000, 0x3f800001, 0xffffffff] 0x3f800000).model.1 3 (some 0x3f800000) =
    some [0x3f800000, 0x3f800001, 0xffffffff] :=
  C04_xor_lossless_residuals log2 _ _ (by decide) (by decide) (by decide)

end ModelarDB.Props
