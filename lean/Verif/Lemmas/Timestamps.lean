import Verif.Model.Timestamps
import Verif.Lemmas.Bits
import Verif.Spec.Ints
/-
Round trip of the timestamp codec.
-/
namespace ModelarDB.Lemmas
open Model Spec

theorem wrapI64_def (x : Int) :
    wrapI64 x = if x % 2 ^ 64 < 2 ^ 63 then x % 2 ^ 64 else x % 2 ^ 64 - 2 ^ 64 := by
  unfold wrapI64
  rw [Int.bmod_def]
  rfl

theorem wrapI64_range (x : Int) : IsI64 (wrapI64 x) := by
  unfold IsI64
  rw [wrapI64_def]
  split <;> omega

theorem wrapI64_of_range {x : Int} (h : IsI64 x) : wrapI64 x = x := by
  unfold IsI64 at h
  rw [wrapI64_def]
  split <;> omega

theorem wrapI64_emod (x : Int) : wrapI64 x % 2 ^ 64 = x % 2 ^ 64 := by
  rw [wrapI64_def]
  split <;> omega

theorem wrapI64_congr {x y : Int} (h : x % 2 ^ 64 = y % 2 ^ 64) : wrapI64 x = wrapI64 y := by
  rw [wrapI64_def, wrapI64_def, h]

theorem asU64_cast (x : Int) : (asU64 x : Int) = x % 2 ^ 64 := by
  unfold asU64; omega

theorem asU64_lt (x : Int) : asU64 x < 2 ^ 64 := by
  unfold asU64; omega

theorem asU64_congr {x y : Int} (h : x % 2 ^ 64 = y % 2 ^ 64) : asU64 x = asU64 y := by
  unfold asU64; rw [h]

/-! ### Irregular timestamps -/

/-- Number of leading one bits of the flag for a delta of delta. -/
def flagOnes (d : Int) : Nat :=
  if d = 0 then 0
  else if -63 ≤ d ∧ d ≤ 64 then 1
  else if -255 ≤ d ∧ d ≤ 256 then 2
  else if -2047 ≤ d ∧ d ≤ 2048 then 3
  else if -2147483647 ≤ d ∧ d ≤ 2147483648 then 4
  else 5

/-- The bits of a flag. -/
def flagBits (ones : Nat) : List Bool :=
  List.replicate ones true ++ (if ones < 5 then [false] else [])

/-- The bits of an encoded delta of delta. -/
def dodBits (d : Int) : List Bool :=
  flagBits (flagOnes d) ++
    (if flagOnes d = 0 then [] else bitsOf (payloadBits (flagOnes d)) (asU64 d))

theorem appendDeltaOfDelta_spec {b : BitVecBuilder} (hb : BWF b) (d : Int) :
    BWF (appendDeltaOfDelta b d) ∧ builderBits (appendDeltaOfDelta b d) = builderBits b ++ dodBits d := by
  unfold appendDeltaOfDelta dodBits flagOnes
  split
  · exact ⟨appendBits_wf hb _ _, by rw [BitVecBuilder.appendZeroBit, appendBits_bits hb]; rfl⟩
  · split
    · exact ⟨appendBits_wf (appendBits_wf hb _ _) _ _,
        by rw [appendBits_bits (appendBits_wf hb _ _), appendBits_bits hb, List.append_assoc]; rfl⟩
    · split
      · exact ⟨appendBits_wf (appendBits_wf hb _ _) _ _,
          by rw [appendBits_bits (appendBits_wf hb _ _), appendBits_bits hb, List.append_assoc]; rfl⟩
      · split
        · exact ⟨appendBits_wf (appendBits_wf hb _ _) _ _,
            by rw [appendBits_bits (appendBits_wf hb _ _), appendBits_bits hb, List.append_assoc]; rfl⟩
        · split
          · exact ⟨appendBits_wf (appendBits_wf hb _ _) _ _,
              by rw [appendBits_bits (appendBits_wf hb _ _), appendBits_bits hb, List.append_assoc]; rfl⟩
          · exact ⟨appendBits_wf (appendBits_wf hb _ _) _ _,
              by rw [appendBits_bits (appendBits_wf hb _ _), appendBits_bits hb, List.append_assoc]; rfl⟩

/-- The bits of a sequence of timestamps. -/
def encodeTimestamps (last lastDelta : Int) : List Int → List Bool
  | [] => []
  | t :: rest =>
    let delta := wrapI64 (t - last)
    dodBits (wrapI64 (delta - lastDelta)) ++ encodeTimestamps t delta rest

theorem compressIrregularLoop_spec (ts : List Int) {b : BitVecBuilder} (hb : BWF b) (last lastDelta : Int) :
    BWF (compressIrregularLoop b last lastDelta ts) ∧
    builderBits (compressIrregularLoop b last lastDelta ts) =
      builderBits b ++ encodeTimestamps last lastDelta ts := by
  induction ts generalizing b last lastDelta with
  | nil => exact ⟨hb, by simp [compressIrregularLoop, encodeTimestamps]⟩
  | cons t ts ih =>
    simp only [compressIrregularLoop, encodeTimestamps]
    obtain ⟨h1, h2⟩ := appendDeltaOfDelta_spec hb (wrapI64 (wrapI64 (t - last) - lastDelta))
    obtain ⟨h3, h4⟩ := ih h1 t (wrapI64 (t - last))
    exact ⟨h3, by rw [h4, h2, List.append_assoc]⟩

/-- Reading `j` one bits followed by a zero, or five one bits, or a run of ones to the end. -/
theorem readFlag_spec (fuel ones j : Nat) (r : BitReader) (rest : List Bool) (hr : RWF r)
    (hf : fuel + ones = 5) (hj : ones + j ≤ 5)
    (hbits : (ones + j < 5 ∧ (readerBits r = List.replicate j true ++ false :: rest ∨
        (rest = [] ∧ readerBits r = List.replicate j true))) ∨
      (ones + j = 5 ∧ readerBits r = List.replicate j true ++ rest)) :
    ∃ r', readFlag fuel ones r = some (ones + j, r') ∧ readerBits r' = rest ∧ RWF r' ∧
      r'.bytes = r.bytes := by
  induction fuel generalizing ones j r with
  | zero =>
    have h5 : ones = 5 := by omega
    have hj0 : j = 0 := by omega
    subst h5 hj0
    rcases hbits with ⟨h, _⟩ | ⟨_, h⟩
    · omega
    · exact ⟨r, by simp [readFlag], by simpa using h, hr, rfl⟩
  | succ fuel ih =>
    unfold readFlag
    cases j with
    | zero =>
      rcases hbits with ⟨h5, h | ⟨hrest, h⟩⟩ | ⟨h5, h⟩
      · have hne : r.isEmpty = false := by
          cases hx : r.isEmpty with
          | false => rfl
          | true => rw [isEmpty_iff hr, h] at hx; simp at hx
        have hlt : ones < 5 := by omega
        simp only [hne, hlt]
        obtain ⟨r', e1, e2, e3, e4⟩ := readBit_spec (r := r) (c := false) (rest := rest) (by simpa using h)
        have hr' : RWF r' := by
          have hw := rwf_of_cons h (by simp)
          have hl := congrArg List.length h
          simp [readerBits] at hl
          unfold RWF at hr ⊢; rw [e3, e4]; omega
        refine ⟨r', ?_, e2, hr', e3⟩
        simp [e1]
      · have he : r.isEmpty = true := by rw [isEmpty_iff hr]; simpa using h
        refine ⟨r, by simp [he], by rw [hrest]; simpa using h, hr, rfl⟩
      · omega
    | succ j =>
      obtain ⟨tail, htail, htl⟩ : ∃ tail, readerBits r = true :: tail ∧
          ((ones + 1 + j < 5 ∧ (tail = List.replicate j true ++ false :: rest ∨
            (rest = [] ∧ tail = List.replicate j true))) ∨
          (ones + 1 + j = 5 ∧ tail = List.replicate j true ++ rest)) := by
        rcases hbits with ⟨h5, h | ⟨hrest, h⟩⟩ | ⟨h5, h⟩
        · exact ⟨_, by rw [h, List.replicate_succ, List.cons_append], Or.inl ⟨by omega, Or.inl rfl⟩⟩
        · exact ⟨_, by rw [h, List.replicate_succ], Or.inl ⟨by omega, Or.inr ⟨hrest, rfl⟩⟩⟩
        · exact ⟨_, by rw [h, List.replicate_succ, List.cons_append], Or.inr ⟨by omega, rfl⟩⟩
      have hne : r.isEmpty = false := by
        cases hx : r.isEmpty with
        | false => rfl
        | true => rw [isEmpty_iff hr, htail] at hx; simp at hx
      have hlt : ones < 5 := by omega
      obtain ⟨r', e1, e2, e3, e4⟩ := readBit_spec htail
      have hr' : RWF r' := by
        have hl := congrArg List.length htail
        simp [readerBits] at hl
        unfold RWF at hr ⊢; rw [e3, e4]; omega
      obtain ⟨r'', f1, f2, f3, f4⟩ := ih (ones + 1) j r' hr' (by omega) (by omega) (by rw [e2]; exact htl)
      refine ⟨r'', ?_, f2, f3, by rw [f4, e3]⟩
      simp only [hne, hlt, e1]
      have : ones + (j + 1) = ones + 1 + j := by omega
      rw [this]
      simpa using f1

theorem signExtend (n : Nat) (hn : n ∈ [7, 9, 12, 32]) (d : Int)
    (h1 : -(2 ^ (n - 1) : Nat) < d) (h2 : d ≤ (2 ^ (n - 1) : Nat)) :
    (if asU64 d % 2 ^ n > 1 <<< (n - 1) then
        asU64 d % 2 ^ n ||| (((2 ^ 128 - 1) <<< n) % 2 ^ 128) % 2 ^ 64
      else asU64 d % 2 ^ n) = asU64 d := by
  have hor : ∀ (k e : Nat), e < 2 ^ k → e ||| (2 ^ k * (2 ^ (64 - k) - 1)) = 2 ^ k * (2 ^ (64 - k) - 1) + e := by
    intro k e he
    rw [Nat.two_pow_add_eq_or_of_lt he, Nat.or_comm]
  have hc := asU64_cast d
  have hmask : ∀ k ∈ [7, 9, 12, 32], (((2 ^ 128 - 1) <<< k) % 2 ^ 128) % 2 ^ 64 = 2 ^ k * (2 ^ (64 - k) - 1) := by
    decide
  have hlt : asU64 d % 2 ^ n < 2 ^ n := Nat.mod_lt _ (Nat.two_pow_pos n)
  rw [hmask n hn, hor n _ hlt]
  simp only [List.mem_cons, List.not_mem_nil, or_false] at hn
  rcases hn with h | h | h | h <;> subst h <;> simp at h1 h2 ⊢ <;> split <;> omega

theorem readDecode_spec {r : BitReader} {rest : List Bool} (d : Int) (h0 : d ≠ 0)
    (lastDelta : Nat)
    (h : readerBits r = bitsOf (payloadBits (flagOnes d)) (asU64 d) ++ rest) :
    ∃ r', readDecodeAndComputeDelta r (payloadBits (flagOnes d)) lastDelta =
        some ((lastDelta + asU64 d) % 2 ^ 64, r') ∧
      readerBits r' = rest ∧ r'.bytes = r.bytes ∧
      r'.nextBit = r.nextBit + payloadBits (flagOnes d) := by
  have hp : payloadBits (flagOnes d) ≤ 64 := by
    unfold payloadBits; split <;> decide
  obtain ⟨r', e1, e2, e3, e4⟩ := readBits_spec hp h (bitsOf_length _ _)
  refine ⟨r', ?_, e2, e3, e4⟩
  unfold readDecodeAndComputeDelta
  rw [e1]
  dsimp only
  rw [ofBits_bitsOf]
  congr 3
  congr 1
  unfold flagOnes
  rw [if_neg h0]
  split
  · exact signExtend 7 (by decide) d (by simp; omega) (by simp; omega)
  · split
    · exact signExtend 9 (by decide) d (by simp; omega) (by simp; omega)
    · split
      · exact signExtend 12 (by decide) d (by simp; omega) (by simp; omega)
      · split
        · exact signExtend 32 (by decide) d (by simp; omega) (by simp; omega)
        · have hm : asU64 d % 2 ^ 64 = asU64 d := Nat.mod_eq_of_lt (asU64_lt d)
          simp only [payloadBits, hm]
          simp

theorem decompressIrregularLoop_spec (ts : List Int) (hts : ∀ t ∈ ts, IsI64 t)
    (fuel : Nat) (r : BitReader) (last lastDelta : Int) (k : Nat)
    (hr : RWF r) (hk : k < 8) (hfuel : ts.length < fuel)
    (h : readerBits r = encodeTimestamps last lastDelta ts ++ List.replicate k true) :
    decompressIrregularLoop fuel r (asU64 lastDelta) last = some ts := by
  induction ts generalizing fuel r last lastDelta with
  | nil =>
    cases fuel with
    | zero => simp at hfuel
    | succ fuel =>
      unfold decompressIrregularLoop
      simp only [encodeTimestamps, List.nil_append] at h
      by_cases hk0 : k = 0
      · have : r.isEmpty = true := by rw [isEmpty_iff hr, h, hk0]; rfl
        simp [this]
      · have hne : r.isEmpty = false := by
          cases hx : r.isEmpty with
          | false => rfl
          | true => rw [isEmpty_iff hr, h] at hx; simp at hx; omega
        rw [hne]
        by_cases h5 : k < 5
        · obtain ⟨r', e1, e2, e3, e4⟩ := readFlag_spec 5 0 k r [] hr rfl (by omega)
            (Or.inl ⟨by omega, Or.inr ⟨rfl, h⟩⟩)
          have hrem : r'.remainingBits = 0 := by rw [remainingBits_eq, e2]; rfl
          simp [e1, hrem, hk0]
        · obtain ⟨r', e1, e2, e3, e4⟩ := readFlag_spec 5 0 5 r (List.replicate (k - 5) true) hr rfl (by omega)
            (Or.inr ⟨rfl, by rw [h, List.replicate_append_replicate]; congr 1; omega⟩)
          have hrem : r'.remainingBits = k - 5 := by rw [remainingBits_eq, e2]; simp
          have : k - 5 < 7 := by omega
          simp [e1, hrem, this]
  | cons t ts ih =>
    cases fuel with
    | zero => simp at hfuel
    | succ fuel =>
      unfold decompressIrregularLoop
      simp only [encodeTimestamps] at h
      generalize hdelta : wrapI64 (t - last) = delta at h
      generalize hdod : wrapI64 (delta - lastDelta) = dod at h
      have hbits : readerBits r = flagBits (flagOnes dod) ++
          ((if flagOnes dod = 0 then [] else bitsOf (payloadBits (flagOnes dod)) (asU64 dod)) ++
            (encodeTimestamps t delta ts ++ List.replicate k true)) := by
        rw [h, dodBits]; simp only [List.append_assoc]
      have hle : flagOnes dod ≤ 5 := by
        unfold flagOnes; repeat' split
        all_goals decide
      have hfne : flagBits (flagOnes dod) ≠ [] := by
        unfold flagBits
        by_cases h5 : flagOnes dod < 5
        · simp [h5]
        · have : flagOnes dod = 5 := by omega
          simp [this]
      have hne : r.isEmpty = false := by
        cases hx : r.isEmpty with
        | false => rfl
        | true =>
          rw [isEmpty_iff hr, hbits] at hx
          exact absurd (List.append_eq_nil_iff.mp hx).1 hfne
      obtain ⟨r₁, e1, e2, e3, e4⟩ := readFlag_spec 5 0 (flagOnes dod) r
        ((if flagOnes dod = 0 then [] else bitsOf (payloadBits (flagOnes dod)) (asU64 dod)) ++
            (encodeTimestamps t delta ts ++ List.replicate k true)) hr rfl (by omega) (by
          by_cases h5 : flagOnes dod < 5
          · refine Or.inl ⟨by omega, Or.inl ?_⟩
            rw [hbits, flagBits, if_pos h5, List.append_assoc]; rfl
          · have : flagOnes dod = 5 := by omega
            refine Or.inr ⟨by omega, ?_⟩
            rw [hbits, flagBits, if_neg h5, List.append_nil])
      rw [Nat.zero_add] at e1
      rw [hne, e1]
      dsimp only
      -- The new delta is the delta that was encoded.
      have hnew : (asU64 lastDelta + asU64 dod) % 2 ^ 64 = asU64 delta := by
        have g1 := asU64_cast lastDelta
        have g2 := asU64_cast dod
        have g3 := asU64_cast delta
        have g4 : dod % 2 ^ 64 = (delta - lastDelta) % 2 ^ 64 := by rw [← hdod, wrapI64_emod]
        omega
      have ht : wrapI64 (last + wrapI64 (asU64 delta : Nat)) = t := by
        have ht := hts t (by simp)
        rw [← wrapI64_of_range ht]
        apply wrapI64_congr
        rw [Int.add_emod, wrapI64_emod, asU64_cast, Int.emod_emod, ← hdelta,
          wrapI64_emod, ← Int.add_emod]
        congr 1; omega
      have hstep : ∃ r₂, (if flagOnes dod = 0 then some (asU64 lastDelta, r₁)
                 else readDecodeAndComputeDelta r₁ (payloadBits (flagOnes dod)) (asU64 lastDelta)) =
            some (asU64 delta, r₂) ∧
          readerBits r₂ = encodeTimestamps t delta ts ++ List.replicate k true ∧ RWF r₂ := by
        by_cases h0 : flagOnes dod = 0
        · rw [if_pos h0]
          have hz : dod = 0 := by
            unfold flagOnes at h0
            split at h0
            · assumption
            · repeat' split at h0
              all_goals omega
          refine ⟨r₁, ?_, by rw [e2, if_pos h0]; rfl, e3⟩
          rw [← hnew, hz]
          have : asU64 0 = 0 := rfl
          rw [this, Nat.add_zero, Nat.mod_eq_of_lt (asU64_lt _)]
        · rw [if_neg h0]
          have hz : dod ≠ 0 := by
            intro hz; apply h0; rw [hz]; rfl
          rw [if_neg h0] at e2
          obtain ⟨r₂, f1, f2, f3, f4⟩ := readDecode_spec dod hz (asU64 lastDelta) e2
          rw [hnew] at f1
          refine ⟨r₂, f1, f2, ?_⟩
          have hl := congrArg List.length e2
          simp only [readerBits, List.length_drop, bytesToBits_length, List.length_append, bitsOf_length] at hl
          unfold RWF at e3 ⊢
          have hp : 0 < payloadBits (flagOnes dod) := by unfold payloadBits; split <;> decide
          rw [f3, f4]; omega
      obtain ⟨r₂, s1, s2, s3⟩ := hstep
      have hnostop : (decide (flagOnes dod ≠ 0) && decide (r₁.remainingBits < 7)) = false := by
        by_cases h0 : flagOnes dod = 0
        · simp [h0]
        · have : 7 ≤ r₁.remainingBits := by
            rw [remainingBits_eq, e2, if_neg h0]
            simp only [List.length_append, bitsOf_length]
            have hp : 7 ≤ payloadBits (flagOnes dod) := by unfold payloadBits; split <;> decide
            omega
          simp; omega
      rw [hnostop, s1]
      dsimp only
      rw [ht, ih (fun x hx => hts x (by simp [hx])) fuel r₂ t delta s3 (by simpa using hfuel) s2]
      rfl

theorem encodeTimestamps_length (ts : List Int) (last lastDelta : Int) :
    ts.length ≤ (encodeTimestamps last lastDelta ts).length := by
  induction ts generalizing last lastDelta with
  | nil => simp
  | cons t ts ih =>
    simp only [encodeTimestamps, List.length_append, List.length_cons]
    have h1 := ih t (wrapI64 (t - last))
    have h2 : 0 < (dodBits (wrapI64 (wrapI64 (t - last) - lastDelta))).length := by
      unfold dodBits flagBits
      simp only [List.length_append, List.length_replicate]
      by_cases h5 : flagOnes (wrapI64 (wrapI64 (t - last) - lastDelta)) < 5
      · simp [h5]; omega
      · omega
    omega

/-- Irregular round trip for any timestamps between the first and the last one. -/
theorem irregular_roundtrip (t₀ : Int) (mid : List Int) (tn : Int) (hmid : ∀ t ∈ mid, IsI64 t) :
    areCompressedTimestampsRegular (compressIrregularResidualTimestamps (t₀ :: (mid ++ [tn]))) = false ∧
    decompressAllIrregularTimestamps t₀ tn
      (compressIrregularResidualTimestamps (t₀ :: (mid ++ [tn]))) = some (t₀ :: mid ++ [tn]) := by
  simp only [compressIrregularResidualTimestamps, List.dropLast_concat]
  have hb1 : BWF BitVecBuilder.new.appendOneBit := appendBits_wf bwf_new _ _
  have hbits1 : builderBits BitVecBuilder.new.appendOneBit = [true] := rfl
  obtain ⟨hw, hbits⟩ := compressIrregularLoop_spec mid hb1 t₀ 0
  obtain ⟨k, hk, hfin⟩ := finishWithOneBits_bits hw
  rw [hbits, hbits1] at hfin
  generalize (compressIrregularLoop BitVecBuilder.new.appendOneBit t₀ 0 mid).finishWithOneBits = bytes at hfin
  cases bytes with
  | nil => simp at hfin
  | cons x xs =>
    constructor
    · have h0 := congrArg (fun l => l[0]?) hfin
      simp only [bytesToBits_getElem?] at h0
      simp at h0
      simp only [areCompressedTimestampsRegular, List.isEmpty_cons, List.headD_cons, Bool.false_or]
      have hand : x &&& 128 ≠ 0 := by
        intro hz
        have := congrArg (fun n => n.testBit 7) hz
        have h128 : (128 : Nat).testBit 7 = true := by decide
        simp [Nat.testBit_and, h0, h128] at this
      simpa using hand
    · unfold decompressAllIrregularTimestamps
      simp only [BitReader.tryNew, List.isEmpty_cons]
      have hr0 : readerBits ⟨0, x :: xs⟩ = true :: (encodeTimestamps t₀ 0 mid ++ List.replicate k true) := by
        simp only [readerBits, List.drop_zero]
        rw [hfin]; simp
      obtain ⟨r', e1, e2, e3, e4⟩ := readBit_spec hr0
      have hl := congrArg List.length hfin
      simp only [bytesToBits_length, List.length_append, List.length_replicate, List.length_cons,
        List.length_nil] at hl
      have hle := encodeTimestamps_length mid t₀ 0
      have hrwf : RWF r' := by unfold RWF; rw [e3, e4]; simp; omega
      have := decompressIrregularLoop_spec mid hmid (8 * (x :: xs).length) r' t₀ 0 k hrwf hk
        (by simp only [List.length_cons]; omega) e2
      have hz : asU64 0 = 0 := rfl
      rw [hz] at this
      rw [if_neg (by simp)]
      dsimp only
      rw [e1]
      dsimp only
      rw [this]

/-! ### Regular timestamps -/

/-- `n` values starting at `t` with distance `d`. -/
def progression (t d : Int) : Nat → List Int
  | 0 => []
  | n + 1 => t :: progression (t + d) d n

theorem wrapI64_inj {x y : Int} (hx : 0 ≤ x ∧ x < 2 ^ 64) (hy : 0 ≤ y ∧ y < 2 ^ 64)
    (h : wrapI64 x = wrapI64 y) : x = y := by
  have h1 := wrapI64_emod x
  have h2 := wrapI64_emod y
  rw [h, h2] at h1
  omega

theorem regularLoop_spec (ts : List Int) (d t : Int) (hd : 0 ≤ d ∧ d < 2 ^ 64)
    (hts : ∀ x ∈ t :: ts, IsI64 x) (hinc : (t :: ts).Pairwise (· ≤ ·))
    (h : regularLoop (wrapI64 d) t ts = true) : t :: ts = progression t d (ts.length + 1) := by
  induction ts generalizing t with
  | nil => rfl
  | cons x xs ih =>
    unfold regularLoop at h
    split at h
    · simp at h
    · rename_i hne
      have hlt : t ≤ x := by
        rw [List.pairwise_cons] at hinc
        exact hinc.1 x (by simp)
      have ht := hts t (by simp)
      have hx := hts x (by simp)
      unfold IsI64 at ht hx
      have heq : x - t = d := wrapI64_inj (by omega) hd (Decidable.not_not.mp hne)
      have := ih x (fun y hy => hts y (by simp only [List.mem_cons] at hy ⊢; exact Or.inr hy))
        (List.pairwise_cons.mp hinc).2 h
      have hx' : t + d = x := by omega
      rw [List.length_cons, progression, hx', ← this]

theorem progression_getLast (t d : Int) (n : Nat) :
    (progression t d (n + 1)).getLast? = some (t + n * d) := by
  induction n generalizing t with
  | zero => simp [progression]
  | succ n ih =>
    rw [progression, List.getLast?_cons, ih]
    simp only [Option.getD_some, Option.some.injEq]
    rw [Int.natCast_add, Int.add_mul]
    omega

theorem stepRange_progression (d : Nat) (hd : 0 < d) (n : Nat) (t : Int) :
    stepRange (t + n * d) d (n + 1) t = progression t d (n + 1) := by
  induction n generalizing t with
  | zero => simp [stepRange, progression]
  | succ n ih =>
    rw [stepRange, progression]
    have hle : t ≤ t + ((n + 1 : Nat) : Int) * d := by
      have : (0 : Int) ≤ ((n + 1 : Nat) : Int) * d := Int.mul_nonneg (by omega) (by omega)
      omega
    rw [if_pos hle, ← ih]
    congr 2
    rw [Int.natCast_add, Int.add_mul]
    omega

theorem toBeBytes_length (n : Nat) : (toBeBytes n).length = 8 := by simp [toBeBytes]

theorem lt_of_log2 {n b : Nat} (hn : n ≠ 0) (h : n.log2 < b) : n < 2 ^ b := (Nat.log2_lt hn).mp h

/-- The stored length of a regular segment is read back, and its first bit is zero. -/
theorem regular_length_roundtrip (ts : List Int) (h0 : ts ≠ []) (hlt : ts.length < 2 ^ 63) :
    let residual := compressRegularResidualTimestamps ts
    residual ≠ [] ∧ residual.length ≤ 8 ∧ areCompressedTimestampsRegular residual = true ∧
    fromBeBytes (List.replicate (8 - residual.length) 0 ++ residual) = ts.length := by
  have hpos : 0 < ts.length := List.length_pos_iff.mpr h0
  have hne : ts.length ≠ 0 := by omega
  have hlog : ts.length.log2 < 63 := (Nat.log2_lt hne).mpr hlt
  have hlog2 : ts.length < 2 ^ (ts.length.log2 + 1) := lt_of_log2 hne (by omega)
  simp only [compressRegularResidualTimestamps, leadingZeros64, if_neg hne]
  generalize ts.length = n at *
  generalize hL : n.log2 = L at *
  have hbits : (64 - (63 - L) + 1 + 7) / 8 = (L + 9) / 8 := by omega
  rw [hbits]
  obtain ⟨k, hk⟩ : ∃ k, (L + 9) / 8 = k := ⟨_, rfl⟩
  rw [hk]
  have hn : n < 2 ^ (8 * k - 1) := Nat.lt_of_lt_of_le hlog2 (Nat.pow_le_pow_right (by decide) (by omega))
  have hk1 : 1 ≤ k := by omega
  have hk8 : k ≤ 8 := by omega
  clear hL hlog hlog2 hbits hk
  have hand : ∀ x : Nat, x < 128 → (x &&& 128) = 0 := by decide
  simp only [toBeBytes, List.range, List.range.loop, List.map_cons, List.map_nil]
  rcases (by omega : k = 1 ∨ k = 2 ∨ k = 3 ∨ k = 4 ∨ k = 5 ∨ k = 6 ∨ k = 7 ∨ k = 8) with
    h | h | h | h | h | h | h | h <;> subst h <;>
    simp only [Nat.reduceSub, Nat.reducePow, Nat.reduceMul, List.drop_succ_cons, List.drop_zero] at hn ⊢ <;>
    refine ⟨by simp, by simp, ?_, ?_⟩ <;>
    simp only [areCompressedTimestampsRegular, List.isEmpty_cons, List.headD_cons, Bool.false_or,
      beq_iff_eq, fromBeBytes, List.length_cons, List.length_nil, Nat.reduceSub, Nat.reduceAdd, List.replicate, List.cons_append,
      List.nil_append, List.foldl_cons, List.foldl_nil] <;>
    first
      | (apply hand; omega)
      | omega

theorem regular_roundtrip (t d : Int) (n : Nat) (hd : 0 < d) (ht : IsI64 t)
    (hend : IsI64 (t + (n + 1 : Nat) * d)) (hn : n + 2 < 2 ^ 63) :
    decompressAllRegularTimestamps t (t + (n + 1 : Nat) * d)
      (compressRegularResidualTimestamps (progression t d (n + 2))) =
    some (progression t d (n + 2)) := by
  have hlen : ∀ (m : Nat) (t : Int), (progression t d m).length = m := by
    intro m
    induction m with
    | zero => intro t; rfl
    | succ m ih => intro t; simp [progression, ih]
  have hlt : (progression t d (n + 2)).length < 2 ^ 63 := by rw [hlen]; exact hn
  obtain ⟨h1, h2, h3, h4⟩ := regular_length_roundtrip _ (by rw [progression]; simp) hlt
  rw [hlen] at h4
  unfold decompressAllRegularTimestamps
  rw [if_neg (by omega)]
  dsimp only
  rw [h4]
  have hdiv : asU64 (((n + 2 : Nat) : Int) - 1) = n + 1 := by unfold asU64; omega
  obtain ⟨D, rfl⟩ : ∃ D : Nat, d = D := ⟨d.toNat, by omega⟩
  have hdiff : t + ((n + 1 : Nat) : Int) * D - t = (((n + 1) * D : Nat) : Int) := by
    rw [Int.natCast_mul]; omega
  have hprod : (n + 1) * D < 2 ^ 64 := by
    unfold IsI64 at ht hend
    omega
  have hu : asU64 (t + ((n + 1 : Nat) : Int) * D - t) = (n + 1) * D := by
    rw [hdiff]; unfold asU64; omega
  rw [hdiv, if_neg (by omega), hu, Nat.mul_div_cancel_left _ (by omega), if_neg (by omega), hdiff,
    Int.toNat_natCast, Nat.mul_div_cancel _ (by omega), stepRange_progression D (by omega)]

end ModelarDB.Lemmas
