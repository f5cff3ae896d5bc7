import Verif.Model.Base

/-! # /repo/src/fixed_point/math.rs and /repo/src/oscillator/lookup_tables/mod.rs

`i32` arithmetic: overflow panics when `checks`, wraps otherwise (in a `const` context it is a compile error, i.e.
`checks = true`). -/

namespace Verif.FixedPoint

/-- Two's-complement wrap into `i32`. -/
def wrap32 (a : Int) : Int := (a + 2 ^ 31) % 2 ^ 32 - 2 ^ 31
/-- Two's-complement wrap into `i16` (`as i16`). -/
def asI16 (a : Int) : Int := (a + 2 ^ 15) % 2 ^ 16 - 2 ^ 15

/-- The result of an `i32` operation whose exact result is `a`. -/
def i32 (checks : Bool) (a : Int) : M Int :=
  if -2 ^ 31 ≤ a ∧ a ≤ 2 ^ 31 - 1 then .ok a
  else if checks then .error .panic else .ok (wrap32 a)

/-- `a.saturating_mul(b) : i32` -/
def satMul (a b : Int) : Int := max (-2 ^ 31) (min (2 ^ 31 - 1) (a * b))

/-- `a >> n` on a signed integer: arithmetic shift, floor division by `2^n` -/
def shr (a : Int) (n : Nat) : Int := a / 2 ^ n

/-- src/fixed_point/math.rs:31 `B` -/
def B : List Int := [102944, -42334, 5223, -307, 10]
/-- src/fixed_point/math.rs:32 `N` -/
def N : Nat := 15

/-- src/fixed_point/math.rs:39-47, the `while d != 0` loop; `B[d]` panics when `d > 4`. -/
def sinLoop (checks : Bool) (z : Int) : Nat → Int → M Int
  | 0, res => .ok res
  | d + 1, res => do
    match B[d + 1]? with
    | none => .error .panic
    | some b =>
      let res ← i32 checks (res + b)
      let res ← i32 checks (res * z)
      let res := shr res N
      let res ← i32 checks (res * z)
      let res := shr res N
      sinLoop checks z d res

/-- src/fixed_point/math.rs:29-54 `sin_i16_unchecked` -/
def sinI16Unchecked (checks : Bool) (phase : Int) (degree : Nat) : M Int := do
  let z := phase
  let res ← sinLoop checks z degree 0
  let res ← i32 checks (res + 102944)
  let res := satMul res z
  let res := shr res (N + 1)
  return asI16 res

/-- src/fixed_point/math.rs:9-15 `sin_i16` -/
def sinI16 (checks : Bool) (phase : Int) (degree : Nat) : M Int :=
  if degree > 4 then sinI16Unchecked checks phase 4 else sinI16Unchecked checks phase degree

/-- src/oscillator/lookup_tables/mod.rs:6 `min_step`: `(u16::MAX / N as u16) as usize`; `N as u16` truncates and
dividing by zero is a (compile-time) panic. -/
def minStep (n : Nat) : M Nat :=
  if n % 2 ^ 16 = 0 then .error .panic else .ok (65535 / (n % 2 ^ 16))

/-- src/oscillator/lookup_tables/mod.rs:12-13, one table entry:
`phase = (index as i32 * min_step as i32 - i16::MAX as i32) as i16`. Indices below `2^31` (the `as i32` casts of
`index` and `min_step` are then exact). -/
def tableEntry (step index : Nat) : M Int := do
  let p ← i32 true (index * step)
  let p ← i32 true (p - 32767)
  sinI16Unchecked true (asI16 p) 4

/-- src/oscillator/lookup_tables/mod.rs:5-18 `sine_table::<N>()`, evaluated at compile time -/
def sineTable (n : Nat) : M (List Int) := do
  let step ← minStep n
  (List.range n).mapM (tableEntry step)

end Verif.FixedPoint
