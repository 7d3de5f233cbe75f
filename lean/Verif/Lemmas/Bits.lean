import Verif.Model.Bits
import Verif.Spec.Bits
/-
The byte-wise builder and reader refine lists of bits.
-/
namespace ModelarDB.Lemmas
open Model Spec

@[simp] theorem bitsOf_length (n v : Nat) : (bitsOf n v).length = n := by
  induction n with
  | zero => rfl
  | succ n ih => simp [bitsOf, ih]

theorem bitsOf_getElem? (n v i : Nat) :
    (bitsOf n v)[i]? = if i < n then some (v.testBit (n - 1 - i)) else none := by
  induction n generalizing i with
  | zero => simp [bitsOf]
  | succ n ih =>
    cases i with
    | zero => simp [bitsOf]
    | succ i =>
      simp only [bitsOf, List.getElem?_cons_succ, ih]
      by_cases h : i < n
      · have h1 : n - 1 - i = n + 1 - 1 - (i + 1) := by omega
        simp [h, h1]
      · simp [h]

theorem bitsOf_congr (n v w : Nat) (h : ∀ i < n, v.testBit i = w.testBit i) :
    bitsOf n v = bitsOf n w := by
  induction n with
  | zero => rfl
  | succ n ih =>
    simp only [bitsOf]
    rw [h n (by omega), ih (fun i hi => h i (by omega))]

theorem bitsOf_add (a b v : Nat) : bitsOf (a + b) v = bitsOf a (v >>> b) ++ bitsOf b v := by
  induction a with
  | zero => simp [bitsOf]
  | succ a ih =>
    have : a + 1 + b = (a + b) + 1 := by omega
    rw [this]
    simp only [bitsOf, List.cons_append, ih, Nat.testBit_shiftRight]
    rw [Nat.add_comm b a]

theorem bitsOf_mod (n v : Nat) : bitsOf n (v % 2 ^ n) = bitsOf n v := by
  apply bitsOf_congr
  intro i hi
  simp [Nat.testBit_mod_two_pow, hi]

theorem ofBits_foldl (bs : List Bool) (acc : Nat) :
    bs.foldl (fun acc b => 2 * acc + b.toNat) acc = acc * 2 ^ bs.length + ofBits bs := by
  induction bs generalizing acc with
  | nil => simp [ofBits]
  | cons b bs ih =>
    simp only [List.foldl_cons, ofBits, List.length_cons]
    rw [ih, ih (2 * 0 + b.toNat), Nat.pow_succ]
    rw [Nat.add_mul, Nat.mul_zero, Nat.zero_add]
    have : 2 * acc * 2 ^ bs.length = acc * (2 ^ bs.length * 2) := by
      rw [Nat.mul_comm 2 acc, Nat.mul_assoc, Nat.mul_comm 2]
    omega

theorem ofBits_cons (b : Bool) (bs : List Bool) :
    ofBits (b :: bs) = b.toNat * 2 ^ bs.length + ofBits bs := by
  simp only [ofBits, List.foldl_cons]
  rw [ofBits_foldl]
  simp [ofBits]

theorem ofBits_append (as bs : List Bool) :
    ofBits (as ++ bs) = ofBits as * 2 ^ bs.length + ofBits bs := by
  unfold ofBits
  rw [List.foldl_append, ofBits_foldl]
  rfl

theorem testBit_eq_div (v n : Nat) : (v.testBit n).toNat = v / 2 ^ n % 2 := by
  rw [Nat.testBit_eq_decide_div_mod_eq]
  rcases Nat.mod_two_eq_zero_or_one (v / 2 ^ n) with h | h <;> simp [h]

theorem ofBits_bitsOf (n v : Nat) : ofBits (bitsOf n v) = v % 2 ^ n := by
  induction n with
  | zero => simp [bitsOf, ofBits, Nat.mod_one]
  | succ n ih =>
    rw [bitsOf, ofBits_cons, ih, bitsOf_length, testBit_eq_div, Nat.pow_succ, Nat.mod_mul,
      Nat.mul_comm]
    omega

theorem ofBits_lt (bs : List Bool) : ofBits bs < 2 ^ bs.length := by
  induction bs with
  | nil => simp [ofBits]
  | cons b bs ih =>
    rw [ofBits_cons, List.length_cons, Nat.pow_succ]
    have : b.toNat ≤ 1 := by cases b <;> simp
    have h2 : b.toNat * 2 ^ bs.length ≤ 2 ^ bs.length := by
      calc b.toNat * 2 ^ bs.length ≤ 1 * 2 ^ bs.length := Nat.mul_le_mul_right _ this
        _ = 2 ^ bs.length := Nat.one_mul _
    omega

@[simp] theorem bytesToBits_nil : bytesToBits [] = [] := rfl

@[simp] theorem bytesToBits_append (a b : List Nat) :
    bytesToBits (a ++ b) = bytesToBits a ++ bytesToBits b := by
  simp [bytesToBits]

@[simp] theorem bytesToBits_cons (a : Nat) (b : List Nat) :
    bytesToBits (a :: b) = bitsOf 8 a ++ bytesToBits b := by
  simp [bytesToBits]

@[simp] theorem bytesToBits_length (a : List Nat) : (bytesToBits a).length = 8 * a.length := by
  induction a with
  | nil => rfl
  | cons x xs ih => simp [ih]; omega

theorem bytesToBits_getElem? (bytes : List Nat) (i : Nat) :
    (bytesToBits bytes)[i]? = (bytes[i / 8]?).map (fun b => b.testBit (7 - i % 8)) := by
  induction bytes generalizing i with
  | nil => simp
  | cons x xs ih =>
    rw [bytesToBits_cons]
    by_cases h : i < 8
    · rw [List.getElem?_append_left (by simpa using h), bitsOf_getElem?]
      have h1 : i / 8 = 0 := by omega
      have h2 : 8 - 1 - i = 7 - i % 8 := by omega
      simp [h, h1, h2]
    · rw [List.getElem?_append_right (by simpa using h), ih]
      have h1 : i / 8 = (i - 8) / 8 + 1 := by omega
      have h2 : (i - 8) % 8 = i % 8 := by omega
      simp only [bitsOf_length, h2]
      rw [h1, List.getElem?_cons_succ]

/-! ### Builder -/

/-- Well-formed builders. -/
structure BWF (b : BitVecBuilder) : Prop where
  pos : 1 ≤ b.remainingBits
  le : b.remainingBits ≤ 8
  lt : b.currentByte < 256
  low : ∀ i < b.remainingBits, b.currentByte.testBit i = false
  bytes : ∀ x ∈ b.bytes, x < 256

/-- All bits appended so far. -/
def builderBits (b : BitVecBuilder) : List Bool :=
  bytesToBits b.bytes ++ bitsOf (8 - b.remainingBits) (b.currentByte >>> b.remainingBits)

theorem bwf_new : BWF BitVecBuilder.new :=
  ⟨by decide, by decide, by decide, by simp [BitVecBuilder.new], by simp [BitVecBuilder.new]⟩

@[simp] theorem builderBits_new : builderBits BitVecBuilder.new = [] := rfl

/-- Flushing the current byte when it is full. -/
theorem flush_bits (cur rem w : Nat) (bytes : List Nat) (hw : w ≤ rem) (hr : rem ≤ 8) :
    builderBits (if rem - w = 0 then (⟨0, 8, bytes ++ [cur]⟩ : BitVecBuilder)
      else ⟨cur, rem - w, bytes⟩) =
    bytesToBits bytes ++ bitsOf (8 - rem) (cur >>> rem) ++ bitsOf w (cur >>> (rem - w)) := by
  have key : bitsOf (8 - rem + w) (cur >>> (rem - w)) =
      bitsOf (8 - rem) (cur >>> rem) ++ bitsOf w (cur >>> (rem - w)) := by
    rw [bitsOf_add, ← Nat.shiftRight_add]
    have : rem - w + w = rem := by omega
    rw [this]
  by_cases h : rem - w = 0
  · rw [if_pos h]
    simp only [builderBits, bytesToBits_append, bytesToBits_cons, bytesToBits_nil,
      List.append_nil, Nat.sub_self, bitsOf]
    rw [List.append_assoc, ← key, h]
    have : 8 - rem + w = 8 := by omega
    rw [this]; rfl
  · rw [if_neg h]
    simp only [builderBits]
    have : 8 - (rem - w) = 8 - rem + w := by omega
    rw [this, key, List.append_assoc]

theorem appendStep_eq (b : BitVecBuilder) (bits n : Nat) :
    b.appendStep bits n =
      let w := min n b.remainingBits
      let cur := if n > b.remainingBits then
          b.currentByte ||| (((bits >>> (n - b.remainingBits)) &&& ((1 <<< b.remainingBits) - 1)) % 256)
        else b.currentByte |||
          ((((bits <<< (b.remainingBits - n)) % 2 ^ 64) &&& (255 >>> (8 - b.remainingBits))) % 256)
      ((if b.remainingBits - w = 0 then ⟨0, 8, b.bytes ++ [cur]⟩
        else ⟨cur, b.remainingBits - w, b.bytes⟩), w) := by
  unfold BitVecBuilder.appendStep
  by_cases h : n > b.remainingBits
  · simp only [h, if_true]
    have : min n b.remainingBits = b.remainingBits := by omega
    rw [this]
    split <;> rfl
  · simp only [h, if_false]
    have : min n b.remainingBits = n := by omega
    rw [this]
    split <;> rfl

/-- The byte after one step: bits below `rem - w` are zero, the next `w` are the new bits, those
above are unchanged. -/
theorem cur_testBit (b : BitVecBuilder) (hb : BWF b) (bits n : Nat) (hn : 0 < n) (i : Nat) :
    (if n > b.remainingBits then
          b.currentByte ||| (((bits >>> (n - b.remainingBits)) &&& ((1 <<< b.remainingBits) - 1)) % 256)
        else b.currentByte |||
          ((((bits <<< (b.remainingBits - n)) % 2 ^ 64) &&& (255 >>> (8 - b.remainingBits))) % 256)).testBit i
    = if i < b.remainingBits - min n b.remainingBits then false
      else if i < b.remainingBits then
        bits.testBit (n - min n b.remainingBits + (i - (b.remainingBits - min n b.remainingBits)))
      else b.currentByte.testBit i := by
  obtain ⟨h1, h2, h3, h4, h5⟩ := hb
  have e256 : (256 : Nat) = 2 ^ 8 := rfl
  have e255 : (255 : Nat) = 2 ^ 8 - 1 := rfl
  by_cases h : n > b.remainingBits
  · have hm : min n b.remainingBits = b.remainingBits := by omega
    rw [if_pos h, hm]
    simp only [Nat.testBit_or, Nat.one_shiftLeft, e256, Nat.testBit_mod_two_pow, Nat.testBit_and,
      Nat.testBit_shiftRight, Nat.testBit_two_pow_sub_one]
    by_cases hi : i < b.remainingBits
    · have : i < 8 := by omega
      simp [hi, this, h4 i hi]
    · simp [hi]
  · have hm : min n b.remainingBits = n := by omega
    rw [if_neg h, hm]
    simp only [Nat.testBit_or, e256, e255, Nat.testBit_mod_two_pow, Nat.testBit_and,
      Nat.testBit_shiftRight, Nat.testBit_shiftLeft, Nat.testBit_two_pow_sub_one]
    by_cases hi : i < b.remainingBits
    · have g1 : i < 8 := by omega
      have g2 : i < 64 := by omega
      have g3 : 8 - b.remainingBits + i < 8 := by omega
      by_cases hj : i < b.remainingBits - n
      · have g4 : ¬ (b.remainingBits - n ≤ i) := by omega
        simp [hj, h4 i hi, g4]
      · have g4 : b.remainingBits - n ≤ i := by omega
        simp [hi, hj, g1, g2, g3, g4, h4 i hi]
    · have g3 : ¬ (8 - b.remainingBits + i < 8) := by omega
      have hj : ¬ (i < b.remainingBits - n) := by omega
      simp [hi, hj, g3]

theorem appendStep_bits (b : BitVecBuilder) (hb : BWF b) (bits n : Nat) (hn : 0 < n) :
    builderBits (b.appendStep bits n).1 =
      builderBits b ++ bitsOf (min n b.remainingBits) (bits >>> (n - min n b.remainingBits)) := by
  rw [appendStep_eq]
  dsimp only
  rw [flush_bits _ _ _ _ (by omega) hb.le]
  unfold builderBits
  congr 1
  · congr 1
    apply bitsOf_congr
    intro i hi
    rw [Nat.testBit_shiftRight, Nat.testBit_shiftRight, cur_testBit b hb bits n hn]
    have g1 : ¬ (b.remainingBits + i < b.remainingBits - min n b.remainingBits) := by omega
    have g2 : ¬ (b.remainingBits + i < b.remainingBits) := by omega
    rw [if_neg g1, if_neg g2]
  · apply bitsOf_congr
    intro i hi
    rw [Nat.testBit_shiftRight, Nat.testBit_shiftRight, cur_testBit b hb bits n hn]
    have g1 : ¬ (b.remainingBits - min n b.remainingBits + i <
      b.remainingBits - min n b.remainingBits) := by omega
    have g2 : b.remainingBits - min n b.remainingBits + i < b.remainingBits := by omega
    rw [if_neg g1, if_pos g2]
    congr 1
    omega

theorem appendStep_wf (b : BitVecBuilder) (hb : BWF b) (bits n : Nat) (hn : 0 < n) :
    BWF (b.appendStep bits n).1 := by
  rw [appendStep_eq]
  dsimp only
  have hcur := cur_testBit b hb bits n hn
  have e256 : (256 : Nat) = 2 ^ 8 := rfl
  generalize (if n > b.remainingBits then
          b.currentByte ||| (((bits >>> (n - b.remainingBits)) &&& ((1 <<< b.remainingBits) - 1)) % 256)
        else b.currentByte |||
          ((((bits <<< (b.remainingBits - n)) % 2 ^ 64) &&& (255 >>> (8 - b.remainingBits))) % 256)) = cur at hcur ⊢
  have hlt : cur < 256 := by
    rw [e256]
    apply Nat.lt_pow_two_of_testBit
    intro i hi
    rw [hcur]
    have := hb.le
    have g1 : ¬ (i < b.remainingBits - min n b.remainingBits) := by omega
    have g2 : ¬ (i < b.remainingBits) := by omega
    rw [if_neg g1, if_neg g2]
    exact Nat.testBit_lt_two_pow (Nat.lt_of_lt_of_le (e256 ▸ hb.lt) (Nat.pow_le_pow_right (by decide) hi))
  by_cases h : b.remainingBits - min n b.remainingBits = 0
  · rw [if_pos h]
    refine ⟨by simp, by simp, by simp, by simp, ?_⟩
    intro x hx
    simp only [List.mem_append, List.mem_singleton] at hx
    rcases hx with hx | hx
    · exact hb.bytes x hx
    · omega
  · rw [if_neg h]
    refine ⟨by simp only; omega, by simp only; have := hb.le; omega, hlt, ?_, hb.bytes⟩
    intro i hi
    simp only at hi ⊢
    rw [hcur, if_pos hi]

theorem appendLoop_spec (fuel : Nat) (b : BitVecBuilder) (hb : BWF b) (bits n : Nat) (hn : n ≤ fuel) :
    BWF (BitVecBuilder.appendLoop fuel b bits n) ∧
    builderBits (BitVecBuilder.appendLoop fuel b bits n) = builderBits b ++ bitsOf n bits := by
  induction fuel generalizing b n with
  | zero =>
    have : n = 0 := by omega
    subst this
    exact ⟨hb, by simp [BitVecBuilder.appendLoop, bitsOf]⟩
  | succ fuel ih =>
    unfold BitVecBuilder.appendLoop
    by_cases h : n > 0
    · rw [if_pos h]
      have hw : (b.appendStep bits n).2 = min n b.remainingBits := by rw [appendStep_eq]
      have hpos := hb.pos
      have := ih (b.appendStep bits n).1 (appendStep_wf b hb bits n h) (n - min n b.remainingBits) (by omega)
      rw [appendStep_bits b hb bits n h, List.append_assoc, ← bitsOf_add] at this
      have e : min n b.remainingBits + (n - min n b.remainingBits) = n := by omega
      rw [e] at this
      simp only [hw]
      exact this
    · have : n = 0 := by omega
      subst this
      simp [bitsOf, hb]

theorem appendBits_wf {b : BitVecBuilder} (hb : BWF b) (bits n : Nat) : BWF (b.appendBits bits n) :=
  (appendLoop_spec n b hb bits n (Nat.le_refl n)).1

theorem appendBits_bits {b : BitVecBuilder} (hb : BWF b) (bits n : Nat) :
    builderBits (b.appendBits bits n) = builderBits b ++ bitsOf n bits :=
  (appendLoop_spec n b hb bits n (Nat.le_refl n)).2

theorem builder_bytes_length (b : BitVecBuilder) :
    (builderBits b).length = 8 * b.bytes.length + (8 - b.remainingBits) := by
  simp [builderBits]

/-- `finish` pads with zero bits up to the next full byte. -/
theorem finish_bits {b : BitVecBuilder} (hb : BWF b) :
    ∃ k, k < 8 ∧ bytesToBits b.finish = builderBits b ++ List.replicate k false := by
  unfold BitVecBuilder.finish
  by_cases h : b.remainingBits ≠ 8
  · rw [if_pos h]
    refine ⟨b.remainingBits, by have := hb.le; omega, ?_⟩
    simp only [bytesToBits_append, bytesToBits_cons, bytesToBits_nil, List.append_nil, builderBits,
      List.append_assoc]
    congr 1
    have e : 8 = (8 - b.remainingBits) + b.remainingBits := by have := hb.le; omega
    rw [e, bitsOf_add, ← e]
    congr 1
    apply List.ext_getElem?
    intro i
    rw [bitsOf_getElem?, List.getElem?_replicate]
    by_cases hi : i < b.remainingBits
    · rw [if_pos hi, if_pos hi, hb.low _ (by omega)]
    · rw [if_neg hi, if_neg hi]
  · have h8 : b.remainingBits = 8 := by omega
    rw [if_neg h]
    exact ⟨0, by decide, by simp [builderBits, h8, bitsOf]⟩

theorem bitsOf_ones (k : Nat) : bitsOf k (2 ^ k - 1) = List.replicate k true := by
  apply List.ext_getElem?
  intro i
  rw [bitsOf_getElem?, List.getElem?_replicate]
  by_cases hi : i < k
  · rw [if_pos hi, if_pos hi, Nat.testBit_two_pow_sub_one]
    simp; omega
  · rw [if_neg hi, if_neg hi]

theorem finish_wf {b : BitVecBuilder} (hb : BWF b) : ∀ x ∈ b.finish, x < 256 := by
  intro x hx
  unfold BitVecBuilder.finish at hx
  split at hx
  · simp only [List.mem_append, List.mem_singleton] at hx
    rcases hx with hx | hx
    · exact hb.bytes x hx
    · rw [hx]; exact hb.lt
  · exact hb.bytes x hx

/-- `finish_with_one_bits` pads with one bits up to the next full byte. -/
theorem finishWithOneBits_bits {b : BitVecBuilder} (hb : BWF b) :
    ∃ k, k < 8 ∧ bytesToBits b.finishWithOneBits = builderBits b ++ List.replicate k true := by
  unfold BitVecBuilder.finishWithOneBits
  by_cases h : b.remainingBits ≠ 8
  · rw [if_pos h]
    have hw := appendBits_wf hb (2 ^ b.remainingBits - 1) b.remainingBits
    have hbits := appendBits_bits hb (2 ^ b.remainingBits - 1) b.remainingBits
    obtain ⟨k, hk, e⟩ := finish_bits hw
    refine ⟨b.remainingBits, by have := hb.le; omega, ?_⟩
    rw [e, hbits, bitsOf_ones]
    have hl := congrArg List.length e
    rw [hbits] at hl
    simp only [bytesToBits_length, List.length_append, bitsOf_length, List.length_replicate,
      builder_bytes_length] at hl
    have h8 := hb.le
    have : k = 0 := by omega
    subst this
    simp
  · have h8 : b.remainingBits = 8 := by omega
    rw [if_neg h]
    exact ⟨0, by decide, by simp [BitVecBuilder.finish, h8, builderBits, bitsOf]⟩

/-! ### Reader -/

/-- The bits that have not been read yet. -/
def readerBits (r : BitReader) : List Bool := (bytesToBits r.bytes).drop r.nextBit

theorem readBitsLoop_spec (bytes : List Nat) (k bit value : Nat)
    (hk : bit + k ≤ 8 * bytes.length) (hv : value * 2 ^ k + ofBits (((bytesToBits bytes).drop bit).take k) < 2 ^ 64) :
    BitReader.readBitsLoop bytes k bit value =
      some (value * 2 ^ k + ofBits (((bytesToBits bytes).drop bit).take k)) := by
  induction k generalizing bit value with
  | zero => simp [BitReader.readBitsLoop, ofBits]
  | succ k ih =>
    unfold BitReader.readBitsLoop
    have hlt : bit / 8 < bytes.length := by omega
    rw [List.getElem?_eq_getElem hlt]
    dsimp only
    have hbit : (bytesToBits bytes)[bit]? = some (bytes[bit / 8].testBit (7 - bit % 8)) := by
      rw [bytesToBits_getElem?, List.getElem?_eq_getElem hlt]; rfl
    have hlen : bit < (bytesToBits bytes).length := by simp; omega
    have hcons : (bytesToBits bytes).drop bit =
        bytes[bit / 8].testBit (7 - bit % 8) :: (bytesToBits bytes).drop (bit + 1) := by
      rw [List.drop_eq_getElem_cons hlen]
      rw [List.getElem?_eq_getElem hlen] at hbit
      injection hbit with hbit
      rw [hbit]
    rw [hcons, List.take_succ_cons, ofBits_cons] at hv ⊢
    have hl2 : (((bytesToBits bytes).drop (bit + 1)).take k).length = k := by simp; omega
    rw [hl2] at hv ⊢
    have hb1 : (bytes[bit / 8] >>> (7 - bit % 8)) &&& 1 = (bytes[bit / 8].testBit (7 - bit % 8)).toNat := by
      rw [testBit_eq_div, Nat.shiftRight_eq_div_pow, Nat.and_one_is_mod]
    rw [hb1]
    generalize bytes[bit / 8].testBit (7 - bit % 8) = c at *
    have hor : (value <<< 1 ||| c.toNat) = 2 * value + c.toNat := by
      rw [Nat.shiftLeft_eq, Nat.pow_one, Nat.mul_comm]
      exact Nat.two_pow_add_eq_or_of_lt (i := 1) (by cases c <;> decide) value |>.symm
    rw [hor]
    have hpow : value * 2 ^ (k + 1) = 2 * value * 2 ^ k := by
      rw [Nat.pow_succ]
      rw [Nat.mul_comm 2 value, Nat.mul_assoc, Nat.mul_comm 2]
    have hsum : value * 2 ^ (k + 1) + (c.toNat * 2 ^ k +
        ofBits (((bytesToBits bytes).drop (bit + 1)).take k)) =
        (2 * value + c.toNat) * 2 ^ k + ofBits (((bytesToBits bytes).drop (bit + 1)).take k) := by
      rw [hpow, Nat.add_mul]; omega
    rw [hsum] at hv ⊢
    have hsmall : 2 * value + c.toNat < 2 ^ 64 := by
      have : 2 * value + c.toNat ≤ (2 * value + c.toNat) * 2 ^ k :=
        Nat.le_mul_of_pos_right _ (Nat.two_pow_pos k)
      omega
    rw [Nat.mod_eq_of_lt hsmall]
    exact ih (bit + 1) (2 * value + c.toNat) (by omega) hv

theorem readBits_spec {r : BitReader} {n : Nat} {bs rest : List Bool} (hn : n ≤ 64)
    (h : readerBits r = bs ++ rest) (hl : bs.length = n) :
    ∃ r', r.readBits n = some (ofBits bs, r') ∧ readerBits r' = rest ∧ r'.bytes = r.bytes ∧
      r'.nextBit = r.nextBit + n := by
  unfold readerBits at h
  have hlen := congrArg List.length h
  simp only [List.length_drop, bytesToBits_length, List.length_append] at hlen
  have htake : ((bytesToBits r.bytes).drop r.nextBit).take n = bs := by
    rw [h, ← hl, List.take_left]
  refine ⟨{ r with nextBit := r.nextBit + n }, ?_, ?_, rfl, rfl⟩
  · unfold BitReader.readBits
    by_cases h0 : n = 0
    · subst h0
      have : bs = [] := List.length_eq_zero_iff.mp hl
      subst this
      simp [BitReader.readBitsLoop, ofBits]
    · rw [readBitsLoop_spec]
      · rw [htake]; simp
      · omega
      · rw [htake]
        have h1 := ofBits_lt bs
        have h2 : 2 ^ bs.length ≤ 2 ^ 64 := Nat.pow_le_pow_right (by decide) (by omega)
        omega
  · simp only [readerBits]
    rw [← List.drop_drop, h, ← hl, List.drop_left]

theorem readBit_spec {r : BitReader} {c : Bool} {rest : List Bool}
    (h : readerBits r = c :: rest) :
    ∃ r', r.readBit = some (c, r') ∧ readerBits r' = rest ∧ r'.bytes = r.bytes ∧
      r'.nextBit = r.nextBit + 1 := by
  obtain ⟨r', h1, h2⟩ := readBits_spec (r := r) (n := 1) (bs := [c]) (rest := rest) (by decide)
    (by simpa using h) rfl
  refine ⟨r', ?_, h2⟩
  unfold BitReader.readBit
  rw [h1]
  cases c <;> rfl

theorem remainingBits_eq (r : BitReader) : r.remainingBits = (readerBits r).length := by
  simp [BitReader.remainingBits, readerBits]

/-- The reader never moves past the end. -/
def RWF (r : BitReader) : Prop := r.nextBit ≤ 8 * r.bytes.length

theorem isEmpty_iff {r : BitReader} (hr : RWF r) : r.isEmpty = true ↔ readerBits r = [] := by
  unfold RWF at hr
  rw [← List.length_eq_zero_iff]
  simp only [BitReader.isEmpty, readerBits, List.length_drop, bytesToBits_length, beq_iff_eq]
  omega

theorem rwf_of_cons {r : BitReader} {rest : List Bool} (h : readerBits r = rest) (hne : rest ≠ []) :
    RWF r := by
  have := congrArg List.length h
  simp only [readerBits, List.length_drop, bytesToBits_length] at this
  have hp : 0 < rest.length := List.length_pos_iff.mpr hne
  unfold RWF
  omega

end ModelarDB.Lemmas
