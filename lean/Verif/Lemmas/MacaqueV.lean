import Verif.Model.MacaqueV
import Verif.Lemmas.Bits
/-
Round trip of the XOR codec.
-/
namespace ModelarDB.Lemmas
open Model Spec

/-! ### Leading and trailing zeros -/

theorem lt_of_leadingZeros {x l : Nat} (h0 : x ≠ 0) (hx : x < 2 ^ 32) (h : l ≤ leadingZeros32 x) :
    x < 2 ^ (32 - l) := by
  unfold leadingZeros32 at h
  have : x.log2 < 32 := (Nat.log2_lt h0).mpr hx
  exact (Nat.log2_lt h0).mp (by omega)

theorem leadingZeros_le {x : Nat} : leadingZeros32 x ≤ 31 := by unfold leadingZeros32; omega

theorem trailingZeros_spec {x : Nat} (h0 : x ≠ 0) (hx : x < 2 ^ 32) :
    x.testBit (trailingZeros32 x) = true ∧ trailingZeros32 x < 32 ∧
    ∀ i < trailingZeros32 x, x.testBit i = false := by
  unfold trailingZeros32
  cases hf : (List.range 32).find? x.testBit with
  | none =>
    exfalso
    rw [List.find?_eq_none] at hf
    obtain ⟨i, hi⟩ := Nat.exists_testBit_of_ne_zero h0
    by_cases h32 : i < 32
    · exact absurd hi (by simpa using hf i (by simpa using h32))
    · have := Nat.testBit_lt_two_pow (Nat.lt_of_lt_of_le hx (Nat.pow_le_pow_right (by decide) (by omega : 32 ≤ i)))
      rw [this] at hi
      exact absurd hi (by simp)
  | some n =>
    simp only [Option.getD_some]
    rw [List.find?_range_eq_some] at hf
    obtain ⟨h1, h2, h3⟩ := hf
    refine ⟨h1, by simpa using h2, ?_⟩
    intro i hi
    have := h3 i hi
    simpa using this

theorem shift_back {x t : Nat} (h : ∀ i < t, x.testBit i = false) : (x >>> t) <<< t = x := by
  apply Nat.eq_of_testBit_eq
  intro i
  rw [Nat.testBit_shiftLeft]
  by_cases hi : t ≤ i
  · simp [hi, Nat.testBit_shiftRight]
  · rw [h i (by omega)]
    simp [hi]

theorem leading_trailing {x : Nat} (h0 : x ≠ 0) (hx : x < 2 ^ 32) :
    leadingZeros32 x + trailingZeros32 x ≤ 31 := by
  obtain ⟨h1, h2, _⟩ := trailingZeros_spec h0 hx
  have h3 := lt_of_leadingZeros h0 hx (Nat.le_refl _)
  have hle := leadingZeros_le (x := x)
  by_contra hn
  have : x < 2 ^ trailingZeros32 x := Nat.lt_of_lt_of_le h3 (Nat.pow_le_pow_right (by decide) (by omega))
  rw [Nat.testBit_lt_two_pow this] at h1
  exact absurd h1 (by simp)

/-! ### The codec on lists of bits -/

/-- The window of leading and trailing zeros shared by encoder and decoder. -/
def Window (lz tz : Nat) : Prop := (lz = 255 ∧ tz = 0) ∨ lz + tz ≤ 31

/-- The bits of one value and the window afterwards. -/
def xorBits (lz tz last value : Nat) : List Bool × Nat × Nat :=
  let x := value ^^^ last
  if x = 0 then ([true, false], lz, tz)
  else if leadingZeros32 x ≥ lz ∧ trailingZeros32 x ≥ tz then
    (false :: bitsOf (32 - lz - tz) (x >>> tz), lz, tz)
  else
    (true :: true :: (bitsOf 5 (leadingZeros32 x) ++ (bitsOf 6 (32 - leadingZeros32 x - trailingZeros32 x) ++
      bitsOf (32 - leadingZeros32 x - trailingZeros32 x) (x >>> trailingZeros32 x))),
      leadingZeros32 x, trailingZeros32 x)

theorem xorBits_window {lz tz last value : Nat} (hw : Window lz tz) (hv : value < 2 ^ 32)
    (hl : last < 2 ^ 32) : Window (xorBits lz tz last value).2.1 (xorBits lz tz last value).2.2 := by
  unfold xorBits
  dsimp only
  split
  · exact hw
  · rename_i h0
    split
    · exact hw
    · exact Or.inr (leading_trailing h0 (Nat.xor_lt_two_pow hv hl))

theorem encodeXor_spec (m : MacaqueV) (hb : BWF m.compressedValues) (value : Nat) :
    BWF (m.encodeXor value).compressedValues ∧
    builderBits (m.encodeXor value).compressedValues =
      builderBits m.compressedValues ++
        (xorBits m.lastLeadingZeroBits m.lastTrailingZeroBits m.lastValue value).1 ∧
    (m.encodeXor value).lastLeadingZeroBits =
      (xorBits m.lastLeadingZeroBits m.lastTrailingZeroBits m.lastValue value).2.1 ∧
    (m.encodeXor value).lastTrailingZeroBits =
      (xorBits m.lastLeadingZeroBits m.lastTrailingZeroBits m.lastValue value).2.2 ∧
    (m.encodeXor value).errorBound = m.errorBound ∧ (m.encodeXor value).minValue = m.minValue ∧
    (m.encodeXor value).maxValue = m.maxValue ∧ (m.encodeXor value).length = m.length := by
  unfold MacaqueV.encodeXor xorBits
  dsimp only
  split
  · refine ⟨appendBits_wf (appendBits_wf hb _ _) _ _, ?_, rfl, rfl, rfl, rfl, rfl, rfl⟩
    simp only [BitVecBuilder.appendOneBit, BitVecBuilder.appendZeroBit]
    rw [appendBits_bits (appendBits_wf hb _ _), appendBits_bits hb, List.append_assoc]
    rfl
  · split
    · refine ⟨appendBits_wf (appendBits_wf hb _ _) _ _, ?_, rfl, rfl, rfl, rfl, rfl, rfl⟩
      simp only [BitVecBuilder.appendZeroBit]
      rw [appendBits_bits (appendBits_wf hb _ _), appendBits_bits hb, List.append_assoc]
      rfl
    · refine ⟨appendBits_wf (appendBits_wf (appendBits_wf (appendBits_wf (appendBits_wf hb _ _) _ _) _ _) _ _) _ _,
        ?_, rfl, rfl, rfl, rfl, rfl, rfl⟩
      simp only [BitVecBuilder.appendOneBit]
      rw [appendBits_bits (appendBits_wf (appendBits_wf (appendBits_wf (appendBits_wf hb _ _) _ _) _ _) _ _),
        appendBits_bits (appendBits_wf (appendBits_wf (appendBits_wf hb _ _) _ _) _ _),
        appendBits_bits (appendBits_wf (appendBits_wf hb _ _) _ _),
        appendBits_bits (appendBits_wf hb _ _), appendBits_bits hb]
      simp only [List.append_assoc]
      rfl

/-- Reading the meaningful bits restores the value. -/
theorem readMeaningful_spec {r : BitReader} {rest : List Bool} (lz tz last value : Nat)
    (hwin : lz + tz ≤ 31) (hv : value < 2 ^ 32) (hl : last < 2 ^ 32)
    (hlz : value ^^^ last < 2 ^ (32 - lz)) (htz : ∀ i < tz, (value ^^^ last).testBit i = false)
    (h : readerBits r = bitsOf (32 - lz - tz) ((value ^^^ last) >>> tz) ++ rest) :
    ∃ r', XorDecoder.readMeaningful ⟨r, lz, tz, last⟩ = some ⟨r', lz, tz, value⟩ ∧
      readerBits r' = rest := by
  have hm : (32 + 512 - lz - tz) % 256 = 32 - lz - tz := by omega
  obtain ⟨r', e1, e2, _, _⟩ := readBits_spec (n := 32 - lz - tz) (by omega) h (bitsOf_length _ _)
  refine ⟨r', ?_, e2⟩
  unfold XorDecoder.readMeaningful
  simp only [hm, e1]
  have hx : value ^^^ last < 2 ^ 32 := Nat.xor_lt_two_pow hv hl
  have hsh : (value ^^^ last) >>> tz < 2 ^ (32 - lz - tz) := by
    rw [Nat.shiftRight_eq_div_pow, Nat.div_lt_iff_lt_mul (Nat.two_pow_pos tz), ← Nat.pow_add]
    have : 32 - lz - tz + tz = 32 - lz := by omega
    rw [this]; exact hlz
  have hsh32 : (value ^^^ last) >>> tz < 2 ^ 32 :=
    Nat.lt_of_lt_of_le hsh (Nat.pow_le_pow_right (by decide) (by omega))
  have ht : tz % 32 = tz := by omega
  rw [ofBits_bitsOf, Nat.mod_eq_of_lt hsh, Nat.mod_eq_of_lt hsh32, ht, shift_back htz,
    Nat.mod_eq_of_lt hx, Nat.xor_assoc, Nat.xor_self, Nat.xor_zero]

/-- One step of the decoder inverts one step of the encoder. -/
theorem step_spec {r : BitReader} {rest : List Bool} (lz tz last value : Nat)
    (hwin : Window lz tz) (hv : value < 2 ^ 32) (hl : last < 2 ^ 32)
    (h : readerBits r = (xorBits lz tz last value).1 ++ rest) :
    ∃ r', XorDecoder.step ⟨r, lz, tz, last⟩ =
        some ⟨r', (xorBits lz tz last value).2.1, (xorBits lz tz last value).2.2, value⟩ ∧
      readerBits r' = rest := by
  have hx : value ^^^ last < 2 ^ 32 := Nat.xor_lt_two_pow hv hl
  unfold xorBits at h ⊢
  dsimp only at h ⊢
  by_cases h0 : value ^^^ last = 0
  · rw [if_pos h0] at h ⊢
    have heq : value = last := by
      have := congrArg (· ^^^ last) h0
      simpa [Nat.xor_assoc] using this
    obtain ⟨r1, a1, a2, _, _⟩ := readBit_spec (r := r) (c := true) (rest := false :: rest) (by simpa using h)
    obtain ⟨r2, b1, b2, _, _⟩ := readBit_spec (r := r1) (c := false) (rest := rest) a2
    refine ⟨r2, ?_, b2⟩
    simp [XorDecoder.step, a1, b1, heq]
  · rw [if_neg h0] at h ⊢
    obtain ⟨ht1, ht2, ht3⟩ := trailingZeros_spec h0 hx
    by_cases hc : leadingZeros32 (value ^^^ last) ≥ lz ∧ trailingZeros32 (value ^^^ last) ≥ tz
    · rw [if_pos hc] at h ⊢
      have hle := leadingZeros_le (x := value ^^^ last)
      have hw : lz + tz ≤ 31 := by
        rcases hwin with ⟨a, b⟩ | a
        · omega
        · exact a
      obtain ⟨r1, a1, a2, _, _⟩ := readBit_spec (r := r) (c := false)
        (rest := bitsOf (32 - lz - tz) ((value ^^^ last) >>> tz) ++ rest) (by simpa using h)
      obtain ⟨r2, b1, b2⟩ := readMeaningful_spec lz tz last value hw hv hl
        (lt_of_leadingZeros h0 hx hc.1) (fun i hi => ht3 i (by omega)) a2
      refine ⟨r2, ?_, b2⟩
      simp only [XorDecoder.step, a1]
      exact b1
    · rw [if_neg hc] at h ⊢
      have hlt := leading_trailing h0 hx
      obtain ⟨r1, a1, a2, _, _⟩ := readBit_spec (r := r) (c := true) (by simpa using h)
      obtain ⟨r2, b1, b2, _, _⟩ := readBit_spec (r := r1) (c := true) a2
      obtain ⟨r3, c1, c2, _, _⟩ := readBits_spec (r := r2) (n := 5) (by decide) b2 (bitsOf_length _ _)
      obtain ⟨r4, d1, d2, _, _⟩ := readBits_spec (r := r3) (n := 6) (by decide) c2 (bitsOf_length _ _)
      obtain ⟨r5, e1, e2⟩ := readMeaningful_spec (leadingZeros32 (value ^^^ last))
        (trailingZeros32 (value ^^^ last)) last value hlt hv hl
        (lt_of_leadingZeros h0 hx (Nat.le_refl _)) ht3 d2
      refine ⟨r5, ?_, e2⟩
      have hL : ofBits (bitsOf 5 (leadingZeros32 (value ^^^ last))) = leadingZeros32 (value ^^^ last) := by
        rw [ofBits_bitsOf]; exact Nat.mod_eq_of_lt (by omega)
      have hM : ofBits (bitsOf 6 (32 - leadingZeros32 (value ^^^ last) - trailingZeros32 (value ^^^ last))) =
          32 - leadingZeros32 (value ^^^ last) - trailingZeros32 (value ^^^ last) := by
        rw [ofBits_bitsOf]; exact Nat.mod_eq_of_lt (by omega)
      rw [hL] at c1
      rw [hM] at d1
      have hLm : leadingZeros32 (value ^^^ last) % 256 = leadingZeros32 (value ^^^ last) := by omega
      have hTm : (32 + 512 - (32 - leadingZeros32 (value ^^^ last) - trailingZeros32 (value ^^^ last)) % 256 -
          leadingZeros32 (value ^^^ last)) % 256 = trailingZeros32 (value ^^^ last) := by omega
      simp only [XorDecoder.step, a1, b1, c1, d1, hLm, hTm]
      exact e1

/-! ### Whole lists -/

/-- The values that are stored for `values` when `last` was stored before. -/
def storedValues (log2 : Log2) (eb : ErrorBound) : (last : Nat) → List Nat → List Nat
  | _, [] => []
  | last, v :: vs =>
    storedValue log2 eb last v :: storedValues log2 eb (storedValue log2 eb last v) vs

/-- The bits of a list of values that have been rewritten. -/
def xorListBits : (lz tz last : Nat) → List Nat → List Bool
  | _, _, _, [] => []
  | lz, tz, last, v :: vs =>
    (xorBits lz tz last v).1 ++ xorListBits (xorBits lz tz last v).2.1 (xorBits lz tz last v).2.2 v vs

theorem compressLoop_spec (log2 : Log2) (vs : List Nat) (m : MacaqueV) (hb : BWF m.compressedValues) :
    BWF (vs.foldl (MacaqueV.compressValueXorLastValue log2) m).compressedValues ∧
    builderBits (vs.foldl (MacaqueV.compressValueXorLastValue log2) m).compressedValues =
      builderBits m.compressedValues ++
        xorListBits m.lastLeadingZeroBits m.lastTrailingZeroBits m.lastValue
          (storedValues log2 m.errorBound m.lastValue vs) := by
  induction vs generalizing m with
  | nil => exact ⟨hb, by simp [storedValues, xorListBits]⟩
  | cons v vs ih =>
    simp only [List.foldl_cons, storedValues, xorListBits]
    obtain ⟨e1, e2, e3, e4, e5, _, _, _⟩ := encodeXor_spec m hb (storedValue log2 m.errorBound m.lastValue v)
    have := ih (m.compressValueXorLastValue log2 v) e1
    refine ⟨this.1, ?_⟩
    rw [this.2]
    simp only [MacaqueV.compressValueXorLastValue, MacaqueV.updateMinMaxAndLastValue] at *
    rw [e2, e3, e4, e5, List.append_assoc]

theorem run_spec (vs : List Nat) (hvs : ∀ v ∈ vs, v < 2 ^ 32) (r : BitReader) (lz tz last : Nat)
    (rest : List Bool) (hw : Window lz tz) (hl : last < 2 ^ 32)
    (h : readerBits r = xorListBits lz tz last vs ++ rest) :
    XorDecoder.run vs.length ⟨r, lz, tz, last⟩ = some vs := by
  induction vs generalizing r lz tz last with
  | nil => rfl
  | cons v vs ih =>
    simp only [xorListBits, List.append_assoc] at h
    have hv := hvs v (by simp)
    obtain ⟨r', e1, e2⟩ := step_spec lz tz last v hw hv hl h
    simp only [List.length_cons, XorDecoder.run, e1]
    rw [ih (fun x hx => hvs x (by simp [hx])) r' _ _ v (xorBits_window hw hv hl) hv e2]

theorem rewrite_lt {bits : Nat} (n : Int) (h : bits < 2 ^ 32) : rewriteBitsByN bits n < 2 ^ 32 :=
  Nat.lt_of_le_of_lt Nat.and_le_left h

theorem storedValue_lt (log2 : Log2) (eb : ErrorBound) {last v : Nat} (hl : last < 2 ^ 32)
    (hv : v < 2 ^ 32) : storedValue log2 eb last v < 2 ^ 32 := by
  unfold storedValue
  split
  · exact hv
  · split
    · exact hl
    · unfold rewriteLeastMantissaBits
      dsimp only
      split
      · exact hv
      · split
        · exact rewrite_lt _ hv
        · exact rewrite_lt _ hv

theorem storedValues_lt (log2 : Log2) (eb : ErrorBound) (vs : List Nat) {last : Nat}
    (hl : last < 2 ^ 32) (hvs : ∀ v ∈ vs, v < 2 ^ 32) :
    ∀ v ∈ storedValues log2 eb last vs, v < 2 ^ 32 := by
  induction vs generalizing last with
  | nil => simp [storedValues]
  | cons x xs ih =>
    have hs := storedValue_lt log2 eb hl (hvs x (by simp))
    intro v hv
    simp only [storedValues, List.mem_cons] at hv
    rcases hv with rfl | hv
    · exact hs
    · exact ih hs (fun y hy => hvs y (by simp [hy])) v hv

theorem storedValues_length (log2 : Log2) (eb : ErrorBound) (vs : List Nat) (last : Nat) :
    (storedValues log2 eb last vs).length = vs.length := by
  induction vs generalizing last with
  | nil => rfl
  | cons x xs ih => simp [storedValues, ih]

theorem storedValues_lossless (log2 : Log2) (vs : List Nat) (last : Nat) :
    storedValues log2 .lossless last vs = vs := by
  induction vs generalizing last with
  | nil => rfl
  | cons x xs ih => simp [storedValues, storedValue, ih]

theorem xorListBits_ne_nil (lz tz last v : Nat) (vs : List Nat) : xorListBits lz tz last (v :: vs) ≠ [] := by
  simp only [xorListBits]
  unfold xorBits
  dsimp only
  repeat' split
  all_goals simp

/-- Residuals: what `grid` returns is what the encoder stored, for any error bound. -/
theorem residuals_roundtrip (log2 : Log2) (eb : ErrorBound) (vs : List Nat) (last : Nat) (hne : vs ≠ [])
    (hl : last < 2 ^ 32) (hvs : ∀ v ∈ vs, v < 2 ^ 32) :
    macaqueVGrid ((MacaqueV.new eb).compressValuesWithoutFirst log2 vs last).model.1 vs.length (some last) =
      some (storedValues log2 eb last vs) := by
  unfold MacaqueV.compressValuesWithoutFirst MacaqueV.model
  obtain ⟨h1, h2⟩ := compressLoop_spec log2 vs { MacaqueV.new eb with lastValue := last } bwf_new
  obtain ⟨k, _, h3⟩ := finish_bits h1
  rw [h2] at h3
  simp only [MacaqueV.new, builderBits_new, List.nil_append] at h3 ⊢
  generalize (List.foldl (MacaqueV.compressValueXorLastValue log2) _ vs).compressedValues.finish = bytes at h3 ⊢
  have hne' : bytes ≠ [] := by
    rintro rfl
    cases vs with
    | nil => exact hne rfl
    | cons v vs =>
      simp only [bytesToBits_nil, storedValues] at h3
      exact xorListBits_ne_nil _ _ _ _ _ (List.append_eq_nil_iff.mp h3.symm).1
  unfold macaqueVGrid
  have ht : BitReader.tryNew bytes = some ⟨0, bytes⟩ := by
    unfold BitReader.tryNew
    rw [if_neg (by simpa using hne')]
  rw [ht]
  dsimp only
  rw [← storedValues_length log2 eb vs last]
  exact run_spec _ (storedValues_lt log2 eb vs hl hvs) ⟨0, bytes⟩ 255 0 last (List.replicate k false)
    (Or.inl ⟨rfl, rfl⟩) hl (by simp only [readerBits, List.drop_zero]; exact h3)

theorem appendBits32_notEmpty (v : Nat) : (BitVecBuilder.new.appendBits v 32).isEmpty = false := by
  have hw := appendBits_wf bwf_new v 32
  have hb := appendBits_bits bwf_new v 32
  have := congrArg List.length hb
  rw [builder_bytes_length] at this
  simp only [builderBits_new, List.nil_append, bitsOf_length] at this
  have h1 := hw.pos
  unfold BitVecBuilder.isEmpty
  cases hx : (BitVecBuilder.new.appendBits v 32).bytes with
  | nil => rw [hx] at this; simp at this; omega
  | cons => rfl

theorem isEmpty_mono {b : BitVecBuilder} (hb : BWF b) (bits n : Nat) (h : b.isEmpty = false) :
    (b.appendBits bits n).isEmpty = false := by
  have hw := appendBits_wf hb bits n
  have := congrArg List.length (appendBits_bits hb bits n)
  rw [List.length_append, builder_bytes_length, builder_bytes_length, bitsOf_length] at this
  have h1 := hw.pos
  have h2 := hb.le
  unfold BitVecBuilder.isEmpty at h ⊢
  cases hx : (b.appendBits bits n).bytes with
  | nil =>
    rw [hx] at this
    simp only [List.length_nil] at this
    cases hy : b.bytes with
    | nil => rw [hy] at h; simp at h
    | cons y ys => rw [hy] at this; simp only [List.length_cons] at this; omega
  | cons => rfl

theorem encodeXor_notEmpty (m : MacaqueV) (hb : BWF m.compressedValues) (v : Nat)
    (h : m.compressedValues.isEmpty = false) : (m.encodeXor v).compressedValues.isEmpty = false := by
  unfold MacaqueV.encodeXor
  dsimp only
  split
  · exact isEmpty_mono (appendBits_wf hb _ _) _ _ (isEmpty_mono hb _ _ h)
  · split
    · exact isEmpty_mono (appendBits_wf hb _ _) _ _ (isEmpty_mono hb _ _ h)
    · exact isEmpty_mono (appendBits_wf (appendBits_wf (appendBits_wf (appendBits_wf hb _ _) _ _) _ _) _ _) _ _
        (isEmpty_mono (appendBits_wf (appendBits_wf (appendBits_wf hb _ _) _ _) _ _) _ _
          (isEmpty_mono (appendBits_wf (appendBits_wf hb _ _) _ _) _ _
            (isEmpty_mono (appendBits_wf hb _ _) _ _ (isEmpty_mono hb _ _ h))))

/-- After the first value `compress_values` only uses XOR. -/
theorem compressValues_foldl (log2 : Log2) (vs : List Nat) (m : MacaqueV) (hb : BWF m.compressedValues)
    (h : m.compressedValues.isEmpty = false) :
    m.compressValues log2 vs = vs.foldl (MacaqueV.compressValueXorLastValue log2) m := by
  induction vs generalizing m with
  | nil => rfl
  | cons v vs ih =>
    simp only [MacaqueV.compressValues, List.foldl_cons, h, Bool.false_eq_true, if_false] at ih ⊢
    apply ih
    · exact (encodeXor_spec m hb _).1
    · exact encodeXor_notEmpty m hb _ h

/-- Whole segments: what `grid` returns is what the encoder stored, for any error bound. -/
theorem segment_roundtrip (log2 : Log2) (eb : ErrorBound) (v : Nat) (vs : List Nat)
    (hv : v < 2 ^ 32) (hvs : ∀ v ∈ vs, v < 2 ^ 32) :
    macaqueVGrid ((MacaqueV.new eb).compressValues log2 (v :: vs)).model.1 (vs.length + 1) none =
      some (v :: storedValues log2 eb v vs) := by
  have hfirst : (MacaqueV.new eb).compressValues log2 (v :: vs) =
      ({ MacaqueV.new eb with compressedValues := BitVecBuilder.new.appendBits v 32 }.updateMinMaxAndLastValue v).compressValues
        log2 vs := by
    simp only [MacaqueV.compressValues, List.foldl_cons]
    rfl
  rw [hfirst, compressValues_foldl]
  rotate_left
  · exact appendBits_wf bwf_new v 32
  · exact appendBits32_notEmpty v
  unfold MacaqueV.model
  obtain ⟨h1, h2⟩ := compressLoop_spec log2 vs
    ({ MacaqueV.new eb with compressedValues := BitVecBuilder.new.appendBits v 32 }.updateMinMaxAndLastValue v)
    (appendBits_wf bwf_new v 32)
  obtain ⟨k, _, h3⟩ := finish_bits h1
  rw [h2] at h3
  simp only [MacaqueV.new, MacaqueV.updateMinMaxAndLastValue, appendBits_bits bwf_new, builderBits_new,
    List.nil_append] at h3 ⊢
  generalize (List.foldl (MacaqueV.compressValueXorLastValue log2) _ vs).compressedValues.finish = bytes at h3 ⊢
  have hne' : bytes ≠ [] := by
    rintro rfl
    have := congrArg List.length h3
    simp at this
    omega
  unfold macaqueVGrid
  have ht : BitReader.tryNew bytes = some ⟨0, bytes⟩ := by
    unfold BitReader.tryNew
    rw [if_neg (by simpa using hne')]
  rw [ht]
  dsimp only
  obtain ⟨r', e1, e2, _, _⟩ := readBits_spec (r := ⟨0, bytes⟩) (n := 32) (by decide)
    (bs := bitsOf 32 v) (rest := xorListBits 255 0 v (storedValues log2 eb v vs) ++ List.replicate k false)
    (by simp only [readerBits, List.drop_zero]; rw [h3, List.append_assoc]) (bitsOf_length _ _)
  have hv' : ofBits (bitsOf 32 v) = v := by rw [ofBits_bitsOf]; exact Nat.mod_eq_of_lt hv
  rw [hv'] at e1
  rw [e1]
  dsimp only
  rw [Nat.mod_eq_of_lt hv, ← storedValues_length log2 eb vs v]
  rw [run_spec _ (storedValues_lt log2 eb vs hv hvs) r' 255 0 v (List.replicate k false)
    (Or.inl ⟨rfl, rfl⟩) hv e2]

end ModelarDB.Lemmas
