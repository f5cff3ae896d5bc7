import Verif.Model.Base

/-! # /repo/src/float/conversion.rs and /repo/src/float/bit_manipulation.rs

`u32` and `u8` values are natural numbers below `2^32` and `2^8`. Shifting a `u32` by 32 or more panics when
`checks`, otherwise the amount is taken modulo 32; `<<` drops the bits that leave the word. -/

namespace Verif

namespace U32

/-- The result of `a + b : u32` -/
def add (checks : Bool) (a b : Nat) : M Nat :=
  if a + b < 2 ^ 32 then .ok (a + b)
  else if checks then .error .panic else .ok ((a + b) % 2 ^ 32)

/-- `a << n : u32` -/
def shl (checks : Bool) (a n : Nat) : M Nat :=
  if n < 32 then .ok (a * 2 ^ n % 2 ^ 32)
  else if checks then .error .panic else .ok (a * 2 ^ (n % 32) % 2 ^ 32)

/-- `a >> n : u32` -/
def shr (checks : Bool) (a n : Nat) : M Nat :=
  if n < 32 then .ok (a / 2 ^ n)
  else if checks then .error .panic else .ok (a / 2 ^ (n % 32))

/-- `a.to_le_bytes()` for `a : u32` -/
def toLeBytes (a : Nat) : List Nat := [a % 256, a / 256 % 256, a / 65536 % 256, a / 16777216 % 256]

/-- `u32::from_le_bytes` -/
def fromLeBytes (b : List Nat) : Nat :=
  b.getD 0 0 + b.getD 1 0 * 256 + b.getD 2 0 * 65536 + b.getD 3 0 * 16777216

end U32

namespace Conversion

/-- src/float/conversion.rs:12-17 `F32Components` (`sign: bool, exponent: u8, mantissa: u32`) -/
structure F32Components where
  sign : Bool
  exponent : Nat
  mantissa : Nat
  deriving DecidableEq, Repr

/-- src/float/conversion.rs:3-10, `register_bitfields!`: `(shift, mask)` of a field `OFFSET(o) NUMBITS(n)`;
tock-registers' `Field.mask` is the unshifted mask `2^n - 1`. (External crate, modelled from its documentation.) -/
def field (offset numbits : Nat) : Nat × Nat := (offset, 2 ^ numbits - 1)
/-- src/float/conversion.rs:6 -/
def fieldSign : Nat × Nat := field 31 1
/-- src/float/conversion.rs:7 -/
def fieldExp : Nat × Nat := field 23 8
/-- src/float/conversion.rs:8 -/
def fieldMant : Nat × Nat := field 0 23

/-- src/float/conversion.rs:47-55 `to_raw_word`: sums the little-endian bytes, each shifted by `8 * i` -/
def toRawWord (checks : Bool) (x : F32) : M Nat :=
  (U32.toLeBytes x.bits.toNat).zipIdx.foldlM
    (fun acc bi => do U32.add checks acc (← U32.shl checks bi.1 (8 * bi.2))) 0

/-- src/float/conversion.rs:60-62 `from_raw_word`: `f32::from_le_bytes(val.to_le_bytes())` -/
def fromRawWord (v : Nat) : F32 := ⟨BitVec.ofNat 32 (U32.fromLeBytes (U32.toLeBytes v))⟩

/-- src/float/conversion.rs:67-73 `u32::to_f32_components` -/
def wordToComponents (v : Nat) : F32Components :=
  { sign := ((v >>> fieldSign.1) &&& fieldSign.2) != 0
    exponent := ((v >>> fieldExp.1) &&& fieldExp.2) % 256
    mantissa := (v >>> fieldMant.1) &&& fieldMant.2 }

/-- src/float/conversion.rs:78-80 `f32::to_f32_components` -/
def toComponents (checks : Bool) (x : F32) : M F32Components := do
  return wordToComponents (← toRawWord checks x)

/-- src/float/conversion.rs:86-90 `u32::from_f32_components` -/
def wordFromComponents (checks : Bool) (k : F32Components) : M Nat := do
  let s ← U32.shl checks (if k.sign then 1 else 0) fieldSign.1
  let e ← U32.shl checks k.exponent fieldExp.1
  let se ← U32.add checks s e
  let m ← U32.shl checks k.mantissa fieldMant.1
  U32.add checks se m

/-- src/float/conversion.rs:96-98 `f32::from_f32_components` -/
def fromComponents (checks : Bool) (k : F32Components) : M F32 := do
  return fromRawWord (← wordFromComponents checks k)

end Conversion

namespace BitReduction
open Conversion

/-- src/float/bit_manipulation.rs:8-11 `BitReductionError` -/
inductive BitReductionError where
  | overBitReduction | inputExceedsRange
  deriving DecidableEq, Repr

/-- src/float/bit_manipulation.rs:6 `MAX_RANGE = 0x7FFFFFFF_u32 as f32` (which rounds to `2^31`) -/
def maxRange : F32 := F32.ofInt 0x7FFFFFFF

/-- src/float/bit_manipulation.rs:21/30 `(scaled >> bit_depth) << bit_depth` -/
def shiftBackForth (checks : Bool) (n depth : Nat) : M Nat := do
  U32.shl checks (← U32.shr checks n depth) depth

/-- src/float/bit_manipulation.rs:14-40 `bit_reduce_unchecked` -/
def bitReduceUnchecked (checks : Bool) (input : F32) (depth : Nat) : M F32 :=
  if depth ≠ 0 then
    if input.isSignPositive then do
      let scaled := (F32.toIntSat 0 (2 ^ 32 - 1) (input * maxRange)).toNat
      let shifted := F32.ofInt (← shiftBackForth checks scaled depth)
      return shifted / maxRange
    else if input.isSignNegative then do
      let scaled := (F32.toIntSat 0 (2 ^ 32 - 1) (-input * maxRange)).toNat
      let shifted := F32.ofInt (← shiftBackForth checks scaled depth)
      return -shifted / maxRange
    else .ok input
  else .ok input

/-- src/float/bit_manipulation.rs:43-53 `bit_reduce` -/
def bitReduce (checks : Bool) (input : F32) (depth : Nat) : M (Except BitReductionError F32) :=
  if depth > 30 then .ok (.error .overBitReduction)
  else if F32.lt input (lit (-1)) || F32.lt (lit 1) input then .ok (.error .inputExceedsRange)
  else do return .ok (← bitReduceUnchecked checks input depth)

/-- src/float/bit_manipulation.rs:56-69 `bit_reduce_exp_unchecked` -/
def bitReduceExpUnchecked (checks : Bool) (input : F32) (depth : Nat) : M F32 :=
  if depth ≠ 0 then do
    let k ← toComponents checks input
    let m ← shiftBackForth checks k.mantissa depth
    fromComponents checks { k with mantissa := m }
  else .ok input

/-- src/float/bit_manipulation.rs:71-77 `bit_reduce_exp` -/
def bitReduceExp (checks : Bool) (input : F32) (depth : Nat) : M (Except BitReductionError F32) :=
  if depth > 23 then .ok (.error .overBitReduction)
  else do return .ok (← bitReduceExpUnchecked checks input depth)

end BitReduction
end Verif
