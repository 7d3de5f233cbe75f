/-
Model of `/repo/crates/modelardb_compression/src/models/bits.rs`.

Bytes (`u8`) and words (`u64`) are natural numbers; every operation that can leave the range of
its Rust type is reduced explicitly.
-/
namespace ModelarDB.Model

/-- `BitReader` (bits.rs:25-30). -/
structure BitReader where
  /-- Next bit to read from `bytes`. -/
  nextBit : Nat
  /-- Bits packed into one or more bytes. -/
  bytes : List Nat
deriving Repr, DecidableEq

namespace BitReader

/-- `BitReader::try_new` (bits.rs:34-42). `none` is the returned error. -/
def tryNew (bytes : List Nat) : Option BitReader :=
  if bytes.isEmpty then none else some ⟨0, bytes⟩

/-- `BitReader::is_empty` (bits.rs:45-47). -/
def isEmpty (r : BitReader) : Bool :=
  r.nextBit / 8 == r.bytes.length

/-- `BitReader::remaining_bits` (bits.rs:50-52). `next_bit` never exceeds `8 * len` as reading
past the end panics, so the subtraction does not wrap. -/
def remainingBits (r : BitReader) : Nat :=
  8 * r.bytes.length - r.nextBit

/-- The loop of `read_bits` (bits.rs:67-81): `k` more bits are read starting at `bit`, `value` has
been read so far. `none` is the panic of `self.bytes[bit / 8]`. -/
def readBitsLoop (bytes : List Nat) : (k bit value : Nat) → Option Nat
  | 0, _, value => some value
  | k + 1, bit, value =>
    match bytes[bit / 8]? with
    | none => none
    | some byte =>
      let shift := 7 - bit % 8
      let b := (byte >>> shift) &&& 1
      readBitsLoop bytes k (bit + 1) (((value <<< 1) ||| b) % 2 ^ 64)

/-- `BitReader::read_bits` (bits.rs:61-82): the value and the advanced reader. -/
def readBits (r : BitReader) (numberOfBits : Nat) : Option (Nat × BitReader) :=
  match readBitsLoop r.bytes numberOfBits r.nextBit 0 with
  | none => none
  | some v => some (v, { r with nextBit := r.nextBit + numberOfBits })

/-- `BitReader::read_bit` (bits.rs:55-57). -/
def readBit (r : BitReader) : Option (Bool × BitReader) :=
  match r.readBits 1 with
  | none => none
  | some (v, r') => some (v == 1, r')

end BitReader

/-- `BitVecBuilder` (bits.rs:86-93). -/
structure BitVecBuilder where
  /-- `u8` currently used for storing the bits. -/
  currentByte : Nat
  /-- Bits remaining in `currentByte`. -/
  remainingBits : Nat
  /-- Full bytes. -/
  bytes : List Nat
deriving Repr, DecidableEq

namespace BitVecBuilder

/-- `BitVecBuilder::new` (bits.rs:96-102). -/
def new : BitVecBuilder := ⟨0, 8, []⟩

/-- One iteration of the loop of `append_bits` (bits.rs:118-140): the builder afterwards and the
number of bits that were written. -/
def appendStep (b : BitVecBuilder) (bits numberOfBits : Nat) : BitVecBuilder × Nat :=
  let (current, written) :=
    if numberOfBits > b.remainingBits then
      let shift := numberOfBits - b.remainingBits
      (b.currentByte ||| (((bits >>> shift) &&& ((1 <<< b.remainingBits) - 1)) % 256),
        b.remainingBits)
    else
      let shift := b.remainingBits - numberOfBits
      let mask := 255 >>> (8 - b.remainingBits)
      (b.currentByte ||| ((((bits <<< shift) % 2 ^ 64) &&& mask) % 256), numberOfBits)
  let remaining := b.remainingBits - written
  if remaining = 0 then
    (⟨0, 8, b.bytes ++ [current]⟩, written)
  else
    (⟨current, remaining, b.bytes⟩, written)

/-- The loop of `append_bits` (bits.rs:118-140). Every iteration writes at least one bit, so
`numberOfBits` iterations are enough (`fuel`). -/
def appendLoop : (fuel : Nat) → BitVecBuilder → (bits numberOfBits : Nat) → BitVecBuilder
  | 0, b, _, _ => b
  | fuel + 1, b, bits, numberOfBits =>
    if numberOfBits > 0 then
      let (b', written) := b.appendStep bits numberOfBits
      appendLoop fuel b' bits (numberOfBits - written)
    else b

/-- `BitVecBuilder::append_bits` (bits.rs:115-141). -/
def appendBits (b : BitVecBuilder) (bits numberOfBits : Nat) : BitVecBuilder :=
  appendLoop numberOfBits b bits numberOfBits

/-- `append_a_zero_bit` (bits.rs:105-107). -/
def appendZeroBit (b : BitVecBuilder) : BitVecBuilder := b.appendBits 0 1

/-- `append_a_one_bit` (bits.rs:110-112). -/
def appendOneBit (b : BitVecBuilder) : BitVecBuilder := b.appendBits 1 1

/-- `is_empty` (bits.rs:145-147): looks at the full bytes only. -/
def isEmpty (b : BitVecBuilder) : Bool := b.bytes.isEmpty

/-- `finish` (bits.rs:157-162). -/
def finish (b : BitVecBuilder) : List Nat :=
  if b.remainingBits ≠ 8 then b.bytes ++ [b.currentByte] else b.bytes

/-- `finish_with_one_bits` (bits.rs:167-173). -/
def finishWithOneBits (b : BitVecBuilder) : List Nat :=
  if b.remainingBits ≠ 8 then
    (b.appendBits (2 ^ b.remainingBits - 1) b.remainingBits).finish
  else b.finish

end BitVecBuilder

end ModelarDB.Model
