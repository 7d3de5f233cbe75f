/-
Specification vocabulary for bit streams: a stream is a list of booleans, most significant bit
of every field first.
-/
namespace ModelarDB.Spec

/-- The `n` low bits of `v`, most significant first. -/
def bitsOf : (n v : Nat) → List Bool
  | 0, _ => []
  | n + 1, v => v.testBit n :: bitsOf n v

/-- The number whose binary digits are `bs`, most significant first. -/
def ofBits (bs : List Bool) : Nat := bs.foldl (fun acc b => 2 * acc + b.toNat) 0

/-- The bits of a sequence of bytes. -/
def bytesToBits (bytes : List Nat) : List Bool := bytes.flatMap (bitsOf 8)

end ModelarDB.Spec
