import Mathlib.Data.Rat.Floor
/-
IEEE-754 binary32 (`f32`, the type `Value` of ModelarDB) and binary64 (`f64`) arithmetic.

This file does not model code of the repository but the floating-point semantics of Rust that the
repository relies on: the result of an operation is the exact result rounded to nearest, ties to
even. NaN payloads of results are unspecified in Rust; results that are NaN are not distinguished.
-/
namespace ModelarDB.Model

/-- A floating-point datum. `fin s q` is `q` for `s = false` and `-q` for `s = true`, with `0 ≤ q`;
signed zeros are `fin s 0`. -/
inductive FVal where
  | nan
  | inf (neg : Bool)
  | fin (neg : Bool) (mag : ℚ)
deriving DecidableEq, Repr

/-- A binary format: `prec` bits of precision, multiples of `2 ^ emin`, magnitudes below `2 ^ emax`. -/
structure Fmt where
  prec : Nat
  emin : Int
  emax : Int
deriving DecidableEq

/-- binary32. -/
def f32Fmt : Fmt := ⟨24, -149, 128⟩

/-- binary64. -/
def f64Fmt : Fmt := ⟨53, -1074, 1024⟩

/-- `2 ^ e`. -/
def pow2 (e : Int) : ℚ :=
  if 0 ≤ e then ((2 ^ e.toNat : Nat) : ℚ) else mkRat 1 (2 ^ (-e).toNat)

/-- `⌊log₂ q⌋` for `0 < q`. -/
def ilog2 (q : ℚ) : Int :=
  let e : Int := (q.num.toNat.log2 : Int) - (q.den.log2 : Int)
  if pow2 e ≤ q then e else e - 1

/-- Round to the nearest integer, ties to even. -/
def roundEven (x : ℚ) : Int :=
  let f := x.floor
  let r := x - (f : ℚ)
  if r < 1 / 2 then f
  else if 1 / 2 < r then f + 1
  else if f % 2 = 0 then f else f + 1

/-- Exponent of the last place of the representation of `q` (`0 < q`). -/
def lastPlace (fmt : Fmt) (q : ℚ) : Int := max (ilog2 q - (fmt.prec - 1)) fmt.emin

/-- Round a non-negative magnitude, unbounded exponent. -/
def roundMag (fmt : Fmt) (q : ℚ) : ℚ :=
  if q = 0 then 0
  else (roundEven (q / pow2 (lastPlace fmt q)) : ℚ) * pow2 (lastPlace fmt q)

namespace FVal

/-- Round a signed magnitude to a format; overflow gives infinity. -/
def round (fmt : Fmt) (neg : Bool) (q : ℚ) : FVal :=
  let m := roundMag fmt q
  if pow2 fmt.emax ≤ m then inf neg else fin neg m

/-- The rational number of a finite datum; infinities and NaN have none. -/
def toRat? : FVal → Option ℚ
  | fin s q => some (if s then -q else q)
  | _ => none

/-- The rational number of a finite datum, `0` otherwise (only used for finite data). -/
def signed (s : Bool) (q : ℚ) : ℚ := if s then -q else q

/-- Round an exact rational; `zeroSign` is the sign of an exact zero. -/
def ofRat (fmt : Fmt) (zeroSign : Bool) (q : ℚ) : FVal :=
  if q = 0 then fin zeroSign 0
  else if q < 0 then round fmt true (-q)
  else round fmt false q

def isNan : FVal → Bool
  | nan => true
  | _ => false

def isFinite : FVal → Bool
  | fin _ _ => true
  | _ => false

def isInfinite : FVal → Bool
  | inf _ => true
  | _ => false

def neg : FVal → FVal
  | nan => nan
  | inf s => inf (!s)
  | fin s q => fin (!s) q

def abs : FVal → FVal
  | nan => nan
  | inf _ => inf false
  | fin _ q => fin false q

/-- `a + b`. -/
def add (fmt : Fmt) : FVal → FVal → FVal
  | nan, _ => nan
  | _, nan => nan
  | inf s, inf t => if s = t then inf s else nan
  | inf s, fin _ _ => inf s
  | fin _ _, inf t => inf t
  | fin s p, fin t q => ofRat fmt (s && t) (signed s p + signed t q)

/-- `a - b`. -/
def sub (fmt : Fmt) (a b : FVal) : FVal := add fmt a (neg b)

/-- `a * b`. -/
def mul (fmt : Fmt) : FVal → FVal → FVal
  | nan, _ => nan
  | _, nan => nan
  | inf s, inf t => inf (s ^^ t)
  | inf s, fin t q => if q = 0 then nan else inf (s ^^ t)
  | fin s p, inf t => if p = 0 then nan else inf (s ^^ t)
  | fin s p, fin t q => round fmt (s ^^ t) (p * q)

/-- `a / b`. -/
def div (fmt : Fmt) : FVal → FVal → FVal
  | nan, _ => nan
  | _, nan => nan
  | inf _, inf _ => nan
  | inf s, fin t _ => inf (s ^^ t)
  | fin s _, inf t => fin (s ^^ t) 0
  | fin s p, fin t q =>
    if q = 0 then (if p = 0 then nan else inf (s ^^ t))
    else round fmt (s ^^ t) (p / q)

/-- `a < b`. -/
def lt : FVal → FVal → Bool
  | nan, _ => false
  | _, nan => false
  | inf s, inf t => s && !t
  | inf s, fin _ _ => s
  | fin _ _, inf t => !t
  | fin s p, fin t q => decide (signed s p < signed t q)

/-- `a == b`. -/
def eq : FVal → FVal → Bool
  | nan, _ => false
  | _, nan => false
  | inf s, inf t => s == t
  | inf _, fin _ _ => false
  | fin _ _, inf _ => false
  | fin s p, fin t q => decide (signed s p = signed t q)

/-- `a <= b`. -/
def le (a b : FVal) : Bool := lt a b || eq a b

/-- `f32::min`/`f64::min`: NaN is ignored if the other operand is a number. For operands that are
equal (only relevant for zeros of different sign) Rust leaves the choice open; the first operand
is returned, as on x86-64. -/
def min (a b : FVal) : FVal :=
  if a.isNan then b else if b.isNan then a else if lt b a then b else a

/-- `f32::max`/`f64::max`, see `min`. -/
def max (a b : FVal) : FVal :=
  if a.isNan then b else if b.isNan then a else if lt a b then b else a

/-- Conversion to another format (`as f32`, `as f64`). -/
def convert (fmt : Fmt) : FVal → FVal
  | nan => nan
  | inf s => inf s
  | fin s q => round fmt s q

/-- Conversion from an integer (`as f32`, `as f64`). -/
def ofInt (fmt : Fmt) (n : Int) : FVal := ofRat fmt false (n : ℚ)

/-- The datum with a 32-bit pattern (`f32::from_bits`). -/
def ofBits32 (b : Nat) : FVal :=
  let s := b.testBit 31
  let e : Nat := b / 2 ^ 23 % 256
  let m : Nat := b % 2 ^ 23
  if e = 255 then (if m = 0 then inf s else nan)
  else if e = 0 then fin s ((m : ℚ) * pow2 (-149))
  else fin s (((2 ^ 23 + m : Nat) : ℚ) * pow2 ((e : Int) - 150))

/-- The bit pattern of a binary32 datum (`f32::to_bits`). -/
def toBits32 : FVal → Nat
  | nan => 0x7fc00000
  | inf s => s.toNat * 2 ^ 31 + 0x7f800000
  | fin s q =>
    if q = 0 then s.toNat * 2 ^ 31
    else
      let e := ilog2 q
      if e < -126 then s.toNat * 2 ^ 31 + (q / pow2 (-149)).floor.toNat
      else s.toNat * 2 ^ 31 + (e + 127).toNat * 2 ^ 23 +
        ((q / pow2 (e - 23)).floor.toNat - 2 ^ 23)

end FVal

end ModelarDB.Model
