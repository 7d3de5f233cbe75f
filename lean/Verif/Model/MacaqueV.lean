import Verif.Model.Bits
import Verif.Model.ErrorBound
/-
Model of `/repo/crates/modelardb_compression/src/models/macaque_v.rs`. Values are 32-bit patterns.
-/
namespace ModelarDB.Model

/-- `u32::leading_zeros` of a non-zero `x`. -/
def leadingZeros32 (x : Nat) : Nat := 31 - x.log2

/-- `u32::trailing_zeros`. -/
def trailingZeros32 (x : Nat) : Nat := ((List.range 32).find? x.testBit).getD 32

/-- `MacaqueV` (macaque_v.rs:39-58). -/
structure MacaqueV where
  errorBound : ErrorBound
  minValue : Nat
  maxValue : Nat
  lastValue : Nat
  lastLeadingZeroBits : Nat
  lastTrailingZeroBits : Nat
  compressedValues : BitVecBuilder
  length : Nat

/-- `f32::log2().abs().floor() as i32` (macaque_v.rs:185). The precision of `f32::log2` depends on
the platform, so it is a parameter of the model. -/
abbrev Log2 := FVal → Int

/-- `get_exponent` (macaque_v.rs:326-330). -/
def getExponent (bits : Nat) : Int := ((bits >>> 23 &&& 0xff : Nat) : Int) - 127

/-- `rewrite_bits_by_n` (macaque_v.rs:333-336). In release builds the shift count is taken modulo
32. -/
def rewriteBitsByN (bits : Nat) (positions : Int) : Nat :=
  let mask := ((2 ^ 32 - 1) <<< (positions % 32).toNat) % 2 ^ 32
  bits &&& mask

/-- `rewrite_least_mantissa_bits` (macaque_v.rs:168-196). -/
def rewriteLeastMantissaBits (log2 : Log2) (eb : ErrorBound) (value : Nat) : Nat :=
  let v := FVal.ofBits32 value
  if v.abs.eq (.fin false 0) || v.isNan || v.isInfinite then value
  else
    let absErrorBound := (maximumAllowedDeviation eb v).convert f32Fmt
    let exponent := getExponent value
    let factorizedEpsilon := FVal.div f32Fmt absErrorBound (.fin false (pow2 exponent))
    let position := 23 - log2 factorizedEpsilon
    let rewritten := rewriteBitsByN value position
    if !isValueWithinErrorBound eb v (FVal.ofBits32 rewritten) then
      rewriteBitsByN value (position - 1)
    else rewritten

/-- The value that is stored instead of `value` (macaque_v.rs:101-113). `ErrorBound` is compared
with the derived `==`, so only `Lossless` equals `Lossless`. -/
def storedValue (log2 : Log2) (eb : ErrorBound) (lastValue value : Nat) : Nat :=
  match eb with
  | .lossless => value
  | eb =>
    if isValueWithinErrorBound eb (FVal.ofBits32 value) (FVal.ofBits32 lastValue) then lastValue
    else rewriteLeastMantissaBits log2 eb value

namespace MacaqueV

/-- `MacaqueV::new` (macaque_v.rs:61-72). -/
def new (eb : ErrorBound) : MacaqueV :=
  ⟨eb, nanBits32, nanBits32, 0, 255, 0, BitVecBuilder.new, 0⟩

/-- `update_min_max_and_last_value` (macaque_v.rs:199-204). -/
def updateMinMaxAndLastValue (m : MacaqueV) (value : Nat) : MacaqueV :=
  { m with
    minValue := min32 m.minValue value
    maxValue := max32 m.maxValue value
    lastValue := value
    length := m.length + 1 }

/-- The encoding of a value that has been rewritten (macaque_v.rs:115-163). -/
def encodeXor (m : MacaqueV) (value : Nat) : MacaqueV :=
  let x := value ^^^ m.lastValue
  if x = 0 then
    { m with compressedValues := m.compressedValues.appendOneBit.appendZeroBit }
  else
    let leadingZeroBits := leadingZeros32 x
    let trailingZeroBits := trailingZeros32 x
    if leadingZeroBits ≥ m.lastLeadingZeroBits ∧ trailingZeroBits ≥ m.lastTrailingZeroBits then
      let meaningfulBits := 32 - m.lastLeadingZeroBits - m.lastTrailingZeroBits
      { m with
        compressedValues :=
          m.compressedValues.appendZeroBit.appendBits (x >>> m.lastTrailingZeroBits) meaningfulBits }
    else
      let meaningfulBits := 32 - leadingZeroBits - trailingZeroBits
      { m with
        compressedValues :=
          ((m.compressedValues.appendOneBit.appendOneBit.appendBits leadingZeroBits 5).appendBits
            meaningfulBits 6).appendBits (x >>> trailingZeroBits) meaningfulBits
        lastLeadingZeroBits := leadingZeroBits
        lastTrailingZeroBits := trailingZeroBits }

/-- `compress_value_xor_last_value` (macaque_v.rs:100-164). -/
def compressValueXorLastValue (log2 : Log2) (m : MacaqueV) (value : Nat) : MacaqueV :=
  let value := storedValue log2 m.errorBound m.lastValue value
  (m.encodeXor value).updateMinMaxAndLastValue value

/-- `compress_values` (macaque_v.rs:76-88). -/
def compressValues (log2 : Log2) (m : MacaqueV) (values : List Nat) : MacaqueV :=
  values.foldl (fun m value =>
    if m.compressedValues.isEmpty then
      { m with compressedValues := m.compressedValues.appendBits value 32 }.updateMinMaxAndLastValue value
    else m.compressValueXorLastValue log2 value) m

/-- `compress_values_without_first` (macaque_v.rs:92-97). -/
def compressValuesWithoutFirst (log2 : Log2) (m : MacaqueV) (values : List Nat)
    (modelLastValue : Nat) : MacaqueV :=
  values.foldl (compressValueXorLastValue log2) { m with lastValue := modelLastValue }

/-- `model` (macaque_v.rs:208-214). -/
def model (m : MacaqueV) : List Nat × Nat × Nat :=
  (m.compressedValues.finish, m.minValue, m.maxValue)

end MacaqueV

/-- State of the decompression loops in `sum` and `grid`. -/
structure XorDecoder where
  bits : BitReader
  leadingZeros : Nat
  trailingZeros : Nat
  lastValue : Nat

/-- Reading of the meaningful bits and reversing the XOR (macaque_v.rs:305-311, 314-320). `u8`
subtractions wrap and the shift count is masked, as in release builds. -/
def XorDecoder.readMeaningful (d : XorDecoder) : Option XorDecoder :=
  let meaningfulBits := (32 + 512 - d.leadingZeros - d.trailingZeros) % 256
  match d.bits.readBits meaningfulBits with
  | none => none
  | some (v, bits) =>
    let value := ((v % 2 ^ 32) <<< (d.trailingZeros % 32)) % 2 ^ 32
    some { d with bits := bits, lastValue := value ^^^ d.lastValue }

/-- One iteration of the loops in `sum` (macaque_v.rs:239-262) and `grid` (macaque_v.rs:298-321). -/
def XorDecoder.step (d : XorDecoder) : Option XorDecoder :=
  match d.bits.readBit with
  | none => none
  | some (true, bits) =>
    match bits.readBit with
    | none => none
    | some (true, bits) =>
      match bits.readBits 5 with
      | none => none
      | some (leadingZeros, bits) =>
        match bits.readBits 6 with
        | none => none
        | some (meaningfulBits, bits) =>
          let leadingZeros := leadingZeros % 256
          let trailingZeros := (32 + 512 - meaningfulBits % 256 - leadingZeros) % 256
          XorDecoder.readMeaningful ⟨bits, leadingZeros, trailingZeros, d.lastValue⟩
    | some (false, bits) => some { d with bits := bits }
  | some (false, bits) => XorDecoder.readMeaningful { d with bits := bits }

/-- The loop of `grid` (macaque_v.rs:297-322): the next `n` values. -/
def XorDecoder.run : (n : Nat) → XorDecoder → Option (List Nat)
  | 0, _ => some []
  | n + 1, d =>
    match d.step with
    | none => none
    | some d =>
      match XorDecoder.run n d with
      | none => none
      | some rest => some (d.lastValue :: rest)

/-- `macaque_v::grid` (macaque_v.rs:272-323): the appended values for `n` timestamps. Without a
previous value and without timestamps the iteration count underflows; the loop then runs out of
bits, which is a panic. -/
def macaqueVGrid (values : List Nat) (n : Nat) (modelLastValue : Option Nat) : Option (List Nat) :=
  match BitReader.tryNew values with
  | none => none
  | some bits =>
    match modelLastValue with
    | some last => XorDecoder.run n ⟨bits, 255, 0, last⟩
    | none =>
      match bits.readBits 32 with
      | none => none
      | some (first, bits) =>
        match n with
        | 0 => none
        | n + 1 =>
          match XorDecoder.run n ⟨bits, 255, 0, first % 2 ^ 32⟩ with
          | none => none
          | some rest => some (first % 2 ^ 32 :: rest)

/-- The loop of `sum` (macaque_v.rs:238-263). -/
def XorDecoder.runSum : (n : Nat) → XorDecoder → (sum : FVal) → Option FVal
  | 0, _, sum => some sum
  | n + 1, d, sum =>
    match d.step with
    | none => none
    | some d => XorDecoder.runSum n d (FVal.add f32Fmt sum (FVal.ofBits32 d.lastValue))

/-- `macaque_v::sum` (macaque_v.rs:220-265). -/
def macaqueVSum (length : Nat) (values : List Nat) (modelLastValue : Option Nat) : Option FVal :=
  match BitReader.tryNew values with
  | none => none
  | some bits =>
    match modelLastValue with
    | some last => XorDecoder.runSum length ⟨bits, 255, 0, last⟩ (.fin false 0)
    | none =>
      match bits.readBits 32 with
      | none => none
      | some (first, bits) =>
        match length with
        | 0 => none
        | n + 1 =>
          XorDecoder.runSum n ⟨bits, 255, 0, first % 2 ^ 32⟩ (FVal.ofBits32 (first % 2 ^ 32))

end ModelarDB.Model
