import Mathlib.Data.Rat.Floor
import Mathlib.Data.Nat.Log
import Mathlib.Tactic.Linarith
import Mathlib.Tactic.NormNum
import Mathlib.Tactic.Ring
import Mathlib.Tactic.Positivity
import Mathlib.Tactic.FieldSimp

/-!
# IEEE-754 binary32 ("f32")

Models the Rust primitive type `f32` used throughout /repo/src. There is no /repo file for it; the reference is
IEEE-754-2008 binary32 with round-to-nearest-even, which the Rust reference prescribes for `+ - * /`, literals and
`as` casts.

A float is its 32 bits. `mag` (the low 31 bits, read as a number) orders the non-negative floats: counting up in
`mag` walks through 0, the subnormals, the normals, and lands on infinity at `0x7F800000`; above that are the NaNs.
`magInt n` is the value of the `n`-th non-negative float in units of 2^-149, continued past infinity
(so infinity stands at 2^128, above every finite value: comparisons need no special case for infinities).
-/

namespace Verif

/-- A binary32 datum, identified with its bit pattern. -/
@[ext] structure F32 where
  bits : BitVec 32
  deriving DecidableEq, Repr

namespace F32

/-- Sign bit (bit 31). -/
def neg (x : F32) : Bool := x.bits.msb

/-- The low 31 bits as a number. -/
def mag (x : F32) : Nat := x.bits.toNat % 2 ^ 31

/-- Assemble from sign and low 31 bits. -/
def pack (s : Bool) (m : Nat) : F32 := ⟨BitVec.ofNat 32 ((if s then 2 ^ 31 else 0) + m % 2 ^ 31)⟩

/-- Bit pattern (without sign) of infinity. -/
def infMag : Nat := 0x7F800000

/-- Value of magnitude pattern `n`, in units of 2^-149: subnormals (`n < 2^23`) are `n`; otherwise
`(2^23 + mantissa) * 2^(exponent - 1)`. -/
def magInt (n : Nat) : Nat :=
  if n < 2 ^ 23 then n else (2 ^ 23 + n % 2 ^ 23) * 2 ^ (n / 2 ^ 23 - 1)

/-- 2^149: how many units of the least subnormal make 1. -/
def unit : ℚ := 2 ^ 149

/-- The rational value of a finite float (±2^128 for infinities, junk for NaN). -/
def val (x : F32) : ℚ := (if x.neg then -1 else 1) * (magInt x.mag / unit)

def isNaN (x : F32) : Bool := infMag < x.mag
def isInf (x : F32) : Bool := x.mag == infMag
def isFin (x : F32) : Bool := x.mag < infMag

def zero : F32 := pack false 0
def negZero : F32 := pack true 0
def inf : F32 := pack false infMag
def negInf : F32 := pack true infMag
/-- The canonical quiet NaN. -/
def nan : F32 := pack false 0x7FC00000
/-- `f32::MAX` -/
def maxFin : F32 := pack false 0x7F7FFFFF

/-! ## Rounding -/

/-- Largest `n` with `magInt n ≤ N`. -/
def floorIdx (N : Nat) : Nat :=
  if N < 2 ^ 23 then N else (N.log2 - 23) * 2 ^ 23 + N / 2 ^ (N.log2 - 23)

/-- Distance from pattern `n` to the next, in units of 2^-149. -/
def gap (n : Nat) : Nat := 2 ^ (n / 2 ^ 23 - 1)

/-- Nearest pattern to `Q ≥ 0` (in units of 2^-149), ties to the even pattern. -/
def roundIdx (Q : ℚ) : Nat :=
  let n := floorIdx ⌊Q⌋.toNat
  let d := 2 * (Q - magInt n)
  if d < gap n then n
  else if (gap n : ℚ) < d then n + 1
  else if n % 2 = 0 then n else n + 1

/-- Nearest float to `q`; `s` is the sign given to an exactly zero result. -/
def rnd (s : Bool) (q : ℚ) : F32 :=
  if q = 0 then pack s 0 else pack (decide (q < 0)) (min (roundIdx (|q| * unit)) infMag)

/-- A Rust float literal (or a correctly rounded conversion) of value `q`. -/
def ofRat (q : ℚ) : F32 := rnd false q

/-! ## Operations (Rust `f32` operators) -/

/-- `-x`: flips the sign bit (NaN included). -/
def negate (x : F32) : F32 := pack (!x.neg) x.mag

/-- `x.abs()`: clears the sign bit. -/
def abs (x : F32) : F32 := pack false x.mag

/-- `x + y` -/
def add (x y : F32) : F32 :=
  if x.isNaN || y.isNaN then nan
  else if x.isInf then (if y.isInf && (x.neg != y.neg) then nan else x)
  else if y.isInf then y
  else rnd (x.neg && y.neg) (x.val + y.val)

/-- `x - y` -/
def sub (x y : F32) : F32 :=
  if x.isNaN || y.isNaN then nan else add x (negate y)

/-- `x * y` -/
def mul (x y : F32) : F32 :=
  if x.isNaN || y.isNaN then nan
  else if x.isInf || y.isInf then
    (if x.mag = 0 || y.mag = 0 then nan else pack (x.neg != y.neg) infMag)
  else rnd (x.neg != y.neg) (x.val * y.val)

/-- `x / y` -/
def div (x y : F32) : F32 :=
  if x.isNaN || y.isNaN then nan
  else if x.isInf then (if y.isInf then nan else pack (x.neg != y.neg) infMag)
  else if y.isInf then pack (x.neg != y.neg) 0
  else if y.mag = 0 then (if x.mag = 0 then nan else pack (x.neg != y.neg) infMag)
  else rnd (x.neg != y.neg) (x.val / y.val)

instance : Add F32 := ⟨add⟩
instance : Sub F32 := ⟨sub⟩
instance : Mul F32 := ⟨mul⟩
instance : Div F32 := ⟨div⟩
instance : Neg F32 := ⟨negate⟩

/-- `x < y` (false when either is NaN) -/
def lt (x y : F32) : Bool := !x.isNaN && !y.isNaN && decide (x.val < y.val)
/-- `x <= y` -/
def le (x y : F32) : Bool := !x.isNaN && !y.isNaN && decide (x.val ≤ y.val)
/-- `x == y` (so `0.0 == -0.0`, and NaN equals nothing) -/
def feq (x y : F32) : Bool := !x.isNaN && !y.isNaN && decide (x.val = y.val)

/-- `x.is_sign_positive()` -/
def isSignPositive (x : F32) : Bool := !x.neg
/-- `x.is_sign_negative()` -/
def isSignNegative (x : F32) : Bool := x.neg

/-- Truncation toward zero of the value. -/
def truncInt (x : F32) : Int := if x.val < 0 then ⌈x.val⌉ else ⌊x.val⌋

/-- `x as T` for an integer type with range `lo..=hi`: truncate, saturate, NaN gives 0. -/
def toIntSat (lo hi : Int) (x : F32) : Int :=
  if x.isNaN then 0 else max lo (min hi x.truncInt)

/-- `n as f32` for an integer `n`: correctly rounded. -/
def ofInt (n : Int) : F32 := ofRat n

end F32
end Verif
