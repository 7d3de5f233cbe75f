import Verif.Model.Bits
/-
Model of `/repo/crates/modelardb_compression/src/models/timestamps.rs`.

Timestamps are `i64`, modelled as integers; arithmetic that can overflow is reduced with
`wrapI64`, as in the release profile of `/repo/Cargo.toml` (no overflow checks).
-/
namespace ModelarDB.Model

/-- Two's complement wrap-around of `i64` arithmetic. -/
def wrapI64 (x : Int) : Int := x.bmod (2 ^ 64)

/-- `x as u64` for an `i64` (or wider) `x`. -/
def asU64 (x : Int) : Nat := (x % 2 ^ 64).toNat

/-- Loop of `are_uncompressed_timestamps_regular` (timestamps.rs:88-94). -/
def regularLoop (interval : Int) : (previous : Int) → List Int → Bool
  | _, [] => true
  | previous, current :: rest =>
    if wrapI64 (current - previous) ≠ interval then false else regularLoop interval current rest

/-- `are_uncompressed_timestamps_regular` (timestamps.rs:77-95). -/
def areUncompressedTimestampsRegular : List Int → Bool
  | [] => true
  | [_] => true
  | t₀ :: t₁ :: rest => regularLoop (wrapI64 (t₁ - t₀)) t₀ (t₁ :: rest)

/-- `usize::to_be_bytes` for a 64-bit `usize`. -/
def toBeBytes (n : Nat) : List Nat :=
  (List.range 8).map fun i => n / 256 ^ (7 - i) % 256

/-- `usize::from_be_bytes`. -/
def fromBeBytes (bs : List Nat) : Nat := bs.foldl (fun acc b => acc * 256 + b) 0

/-- `usize::leading_zeros` for a 64-bit `usize`. -/
def leadingZeros64 (n : Nat) : Nat := if n = 0 then 64 else 63 - n.log2

/-- `compress_regular_residual_timestamps` (timestamps.rs:99-108). The `ceil` of an `f64` quotient of
a small integer and 8 is exact, so it is modelled by integer division rounding up. The slice
start `8 - number_of_bytes_to_write` would underflow only for lengths of at least `2 ^ 63`. -/
def compressRegularResidualTimestamps (ts : List Int) : List Nat :=
  let length := ts.length
  let numberOfBitsToWrite := (64 - leadingZeros64 length) + 1
  let numberOfBytesToWrite := (numberOfBitsToWrite + 7) / 8
  (toBeBytes length).drop (8 - numberOfBytesToWrite)

/-- The `match` in `compress_irregular_residual_timestamps` (timestamps.rs:125-147). -/
def appendDeltaOfDelta (b : BitVecBuilder) (deltaOfDelta : Int) : BitVecBuilder :=
  if deltaOfDelta = 0 then b.appendZeroBit
  else if -63 ≤ deltaOfDelta ∧ deltaOfDelta ≤ 64 then
    (b.appendBits 0b10 2).appendBits (asU64 deltaOfDelta) 7
  else if -255 ≤ deltaOfDelta ∧ deltaOfDelta ≤ 256 then
    (b.appendBits 0b110 3).appendBits (asU64 deltaOfDelta) 9
  else if -2047 ≤ deltaOfDelta ∧ deltaOfDelta ≤ 2048 then
    (b.appendBits 0b1110 4).appendBits (asU64 deltaOfDelta) 12
  else if -2147483647 ≤ deltaOfDelta ∧ deltaOfDelta ≤ 2147483648 then
    (b.appendBits 0b11110 5).appendBits (asU64 deltaOfDelta) 32
  else
    (b.appendBits 0b11111 5).appendBits (asU64 deltaOfDelta) 64

/-- Loop of `compress_irregular_residual_timestamps` (timestamps.rs:121-150). -/
def compressIrregularLoop (b : BitVecBuilder) (lastTimestamp lastDelta : Int) :
    List Int → BitVecBuilder
  | [] => b
  | timestamp :: rest =>
    let delta := wrapI64 (timestamp - lastTimestamp)
    let deltaOfDelta := wrapI64 (delta - lastDelta)
    compressIrregularLoop (appendDeltaOfDelta b deltaOfDelta) timestamp delta rest

/-- `compress_irregular_residual_timestamps` (timestamps.rs:113-155). It is only called for at
least three timestamps, so the empty case is unreachable. -/
def compressIrregularResidualTimestamps : List Int → List Nat
  | [] => []
  | t₀ :: rest =>
    (compressIrregularLoop BitVecBuilder.new.appendOneBit t₀ 0 rest.dropLast).finishWithOneBits

/-- `compress_residual_timestamps` (timestamps.rs:56-73). -/
def compressResidualTimestamps (ts : List Int) : List Nat :=
  if ts.length ≤ 2 then []
  else if areUncompressedTimestampsRegular ts then compressRegularResidualTimestamps ts
  else compressIrregularResidualTimestamps ts

/-- `are_compressed_timestamps_regular` (timestamps.rs:199-202). -/
def areCompressedTimestampsRegular (residual : List Nat) : Bool :=
  residual.isEmpty || (residual.headD 0 &&& 128) == 0

/-- `(start_time..=end_time).step_by(interval)` (timestamps.rs:220) for a positive interval.
Iteration ends when the next value would exceed the end or overflow `i64`. At most `fuel`
values are produced. -/
def stepRange (endTime : Int) (interval : Nat) : (fuel : Nat) → (current : Int) → List Int
  | 0, _ => []
  | fuel + 1, current =>
    if current ≤ endTime then current :: stepRange endTime interval fuel (current + interval)
    else []

/-- `decompress_all_regular_timestamps` (timestamps.rs:207-223). `none` is a panic: more than eight
bytes, division by zero for a stored length of one (for a stored length of zero the divisor wraps
to `usize::MAX` in release and the interval becomes zero), or `step_by(0)`. -/
def decompressAllRegularTimestamps (startTime endTime : Int) (residual : List Nat) :
    Option (List Int) :=
  if residual.length > 8 then none
  else
    let length := fromBeBytes (List.replicate (8 - residual.length) 0 ++ residual)
    let divisor := asU64 ((length : Int) - 1)
    if divisor = 0 then none
    else
      let interval := asU64 (endTime - startTime) / divisor
      if interval = 0 then none
      else
        -- The loop makes at most `(endTime - startTime) / interval + 1` iterations.
        some (stepRange endTime interval ((endTime - startTime).toNat / interval + 1) startTime)

/-- `read_decode_and_compute_delta` (timestamps.rs:283-292). -/
def readDecodeAndComputeDelta (r : BitReader) (bitsToRead lastDelta : Nat) :
    Option (Nat × BitReader) :=
  match r.readBits bitsToRead with
  | none => none
  | some (encoded, r') =>
    let deltaOfDelta :=
      if encoded > 1 <<< (bitsToRead - 1) then
        encoded ||| (((2 ^ 128 - 1) <<< bitsToRead) % 2 ^ 128) % 2 ^ 64
      else encoded
    some ((lastDelta + deltaOfDelta) % 2 ^ 64, r')

/-- The loop reading the flag (timestamps.rs:246-249): `ones` one bits have been read. -/
def readFlag : (fuel ones : Nat) → BitReader → Option (Nat × BitReader)
  | 0, ones, r => some (ones, r)
  | fuel + 1, ones, r =>
    if ones < 5 && !r.isEmpty then
      match r.readBit with
      | none => none
      | some (true, r') => readFlag fuel (ones + 1) r'
      | some (false, r') => some (ones, r')
    else some (ones, r)

/-- The number of payload bits for each flag (timestamps.rs:258-266). -/
def payloadBits : Nat → Nat
  | 1 => 7
  | 2 => 9
  | 3 => 12
  | 4 => 32
  | _ => 64

/-- Loop of `decompress_all_irregular_timestamps` (timestamps.rs:244-271). Each iteration consumes
at least one bit, so `8 * len` iterations are enough (`fuel`). Returns the decompressed
timestamps in order. -/
def decompressIrregularLoop :
    (fuel : Nat) → BitReader → (lastDelta : Nat) → (timestamp : Int) → Option (List Int)
  | 0, _, _, _ => some []
  | fuel + 1, r, lastDelta, timestamp =>
    if r.isEmpty then some []
    else
      match readFlag 5 0 r with
      | none => none
      | some (ones, r₁) =>
        if ones ≠ 0 && r₁.remainingBits < 7 then some []
        else
          match (if ones = 0 then some (lastDelta, r₁)
                 else readDecodeAndComputeDelta r₁ (payloadBits ones) lastDelta) with
          | none => none
          | some (delta, r₂) =>
            let timestamp' := wrapI64 (timestamp + wrapI64 delta)
            match decompressIrregularLoop fuel r₂ delta timestamp' with
            | none => none
            | some rest => some (timestamp' :: rest)

/-- `decompress_all_irregular_timestamps` (timestamps.rs:228-275). -/
def decompressAllIrregularTimestamps (startTime endTime : Int) (residual : List Nat) :
    Option (List Int) :=
  match BitReader.tryNew residual with
  | none => none
  | some r =>
    match r.readBit with
    | none => none
    | some (_, r') =>
      match decompressIrregularLoop (8 * residual.length) r' 0 startTime with
      | none => none
      | some ts => some (startTime :: ts ++ [endTime])

/-- `decompress_all_timestamps` (timestamps.rs:163-195): the values appended to the builder, `none`
for a panic. -/
def decompressAllTimestamps (startTime endTime : Int) (residual : List Nat) :
    Option (List Int) :=
  if residual.isEmpty && startTime == endTime then some [startTime]
  else if residual.isEmpty then some [startTime, endTime]
  else if areCompressedTimestampsRegular residual then
    decompressAllRegularTimestamps startTime endTime residual
  else decompressAllIrregularTimestamps startTime endTime residual

end ModelarDB.Model
