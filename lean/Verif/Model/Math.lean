import Verif.Model.MemorySlice
import Verif.Model.FixedPoint
import Verif.Model.BlRectTable

/-! # /repo/src/float/math.rs, /repo/src/float/integral.rs, /repo/src/float/dsp_util.rs

`exp`, `powi`, `rem_euclid` are micromath's (external): parameters. -/

namespace Verif.FMath
open Interpolation FixedPoint

/-- `core::f32::consts::PI` (3.14159265358979323846264338327950288) -/
def piQ : ℚ := 314159265358979323846264338327950288 / 10 ^ 35
/-- `core::f32::consts::FRAC_PI_2` (1.57079632679489661923132169163975144) -/
def fracPi2Q : ℚ := 157079632679489661923132169163975144 / 10 ^ 35
/-- `core::f32::consts::FRAC_PI_4` (0.785398163397448309615660845819875721) -/
def fracPi4Q : ℚ := 785398163397448309615660845819875721 / 10 ^ 36
/-- `core::f32::consts::TAU` (6.28318530717958647692528676655900577) -/
def tauQ : ℚ := 628318530717958647692528676655900577 / 10 ^ 35

section
variable {α : Type} [Add α] [Sub α] [Mul α] [Div α] [Neg α] [Lit α]

/-- src/float/math.rs:54-56 `sinh` -/
def sinh (exp : α → α) (x : α) : α := (exp x - exp (-x)) * lit (1/2)
/-- src/float/math.rs:66-68 `cosh` -/
def cosh (exp : α → α) (x : α) : α := (exp x + exp (-x)) * lit (1/2)

/-- src/float/math.rs:87-98 `fast_tan` -/
def fastTan (powi : α → Nat → α) (x : α) : α :=
  let res := lit 0
  let res := res + x
  let res := res + (lit 1 / lit 3) * powi x 3
  let res := res + (lit 2 / lit 15) * powi x 5
  let res := res + (lit 17 / lit 315) * powi x 7
  let res := res + (lit 62 / lit 2835) * powi x 9
  let res := res + (lit 1382 / lit 155925) * powi x 11
  let res := res + (lit 21844 / lit 6081075) * powi x 13
  let res := res + (lit 929569 / lit 638512875) * powi x 15
  res

/-- src/float/math.rs:106-108 `exp_approx` -/
def expApprox (x : α) : α := lit 1 + x + (x * x) / lit 2

/-- src/float/math.rs:105-118 `tanh` -/
def tanh (x : α) : α :=
  let ex := expApprox x
  let enx := expApprox (-x)
  let sh := (ex - enx) / lit 2
  let ch := (ex + enx) / lit 2
  sh / ch

/-- src/float/dsp_util.rs:22-24 `samples_to_seconds` -/
def samplesToSeconds (x sr : α) : α := x / sr
/-- src/float/dsp_util.rs:35-37 `samples_to_millis` -/
def samplesToMillis (x sr : α) : α := (x / sr) * lit 1000
/-- src/float/dsp_util.rs:48-50 `seconds_to_samples` -/
def secondsToSamples (x sr : α) : α := x * sr
/-- src/float/dsp_util.rs:61-63 `millis_to_samples` -/
def millisToSamples (x sr : α) : α := (x * sr) / lit 1000

/-- `.sum::<f32>()`: left fold from zero (newer Rust starts from -0.0; same value for a non-empty sum) -/
def fsum (xs : List α) : α := xs.foldl (· + ·) (lit 0)

/-- `.iter().step_by(2)` -/
def stepBy2 : List α → List α
  | [] => []
  | [x] => [x]
  | x :: _ :: xs => x :: stepBy2 xs

/-- src/float/integral.rs:1-18 `simpsons_rule::<N>(f, a, b)`; `f` may panic. `y[2..N-1]` (line 14) panics for
`N < 3` (slice start after end), `y[1..N]` already for `N = 0`; the calls of `f` before that cannot change the
outcome "panic". `f(a)` and `f(b)` are evaluated by separate calls (lines 12 and 16). -/
def simpsonsRule (n : Nat) (f : α → M α) (a b : α) : M α := do
  let h := (b - a) / lit (n : ℚ)
  let x := (List.range n).map (fun i : Nat => a + lit (i : ℚ) * h)
  let y ← x.mapM f
  let fa ← f a
  if n < 3 then throw .panic
  let fb ← if n % 2 = 0 then f b else pure (lit 0)
  return h / lit 3 *
    (fa + lit 4 * fsum (stepBy2 (y.drop 1))
      + lit 2 * fsum (stepBy2 ((y.take (n - 1)).drop 2))
      + lit 4 * fsum (stepBy2 (y.drop 1))
      + fb)
end

/-- src/float/math.rs:132, 195: `((self / 2.0 - FRAC_PI_4).rem_euclid(PI) / FRAC_PI_4) - 2.0` -/
def normalizedRads (rem : F32 → F32 → F32) (x : F32) : F32 :=
  (rem (x / lit 2 - lit fracPi4Q) (lit piQ) / lit fracPi4Q) - lit 2

/-- `i16::MAX as f32` -/
def i16MaxF : F32 := lit 32767

/-- src/float/math.rs:131-138 `fixed_point_sin`; `i16` phase passed to `sin_i16_unchecked(_, 4)` -/
def fixedPointSin (checks : Bool) (rem : F32 → F32 → F32) (x : F32) : M F32 := do
  let quadrant := (normalizedRads rem x).abs - lit 1
  let phase := F32.toIntSat (-32768) 32767 (i16MaxF * quadrant)
  let r ← sinI16Unchecked checks phase 4
  return F32.ofInt r / i16MaxF

/-- src/float/math.rs:151-153 `fixed_point_cos` -/
def fixedPointCos (checks : Bool) (rem : F32 → F32 → F32) (x : F32) : M F32 :=
  fixedPointSin checks rem (lit fracPi2Q - x)

/-- `TABLE[i]` on an `[i16; N]`: bounds-checked -/
def tableGet (t : List Int) (i : Nat) : M Int :=
  match t[i]? with
  | none => .error .panic
  | some v => .ok v

/-- src/float/math.rs:192-210 `lookup_sin`; `table` is `SINE_LOOKUP` (4096 entries, `sine_table::<4096>()`) -/
def lookupSin (c : Cfg) (rem : F32 → F32 → F32) (table : List Int) (x : F32) : M F32 := do
  let quadrant := (normalizedRads rem x).abs / lit 2
  let n1 ← c.usub table.length 1
  let fIndex := c.u2f n1 * quadrant
  let i := c.f2u fIndex
  if i ≠ n1 then
    let a ← tableGet table i
    let b ← tableGet table (← c.uadd i 1)
    return lerpUnchecked (F32.ofInt a) (F32.ofInt b) (fIndex - c.u2f i) / i16MaxF
  else
    let a ← tableGet table i
    return F32.ofInt a / i16MaxF

/-- src/float/math.rs:225-231 `__sinc_f32`, and 213-215 `sinc` -/
def sinc (checks : Bool) (rem : F32 → F32 → F32) (v : F32) : M F32 :=
  if F32.feq v (lit 0) then .ok (lit 1)
  else do return (← fixedPointSin checks rem v) / v

/-- src/float/math.rs:218-220 `si`: `simpsons_rule::<1000>(__sinc_f32, 0.0, x)` -/
def si (checks : Bool) (rem : F32 → F32 → F32) (x : F32) : M F32 :=
  simpsonsRule 1000 (sinc checks rem) (lit 0) x

/-- The table of src/oscillator/lookup_tables/bl_rect.rs as `f32` values -/
def blRectTable : List F32 := blRectDecimals.map (fun n : Nat => F32.ofRat ((n : ℚ) / 10 ^ blRectDigits))

/-- Memory holding just the table in block 0 -/
def blRectMem : Mem F32 := fun b => if b = 0 then some blRectTable else none

/-- src/float/math.rs:158-187 `lookup_bl_rect`; `MemorySlice::lerp_unchecked` on `from_slice(&BANDLIMITED_RECT[..])` -/
def lookupBlRect (c : Cfg) (x : F32) : M F32 :=
  let buffer := MemorySlice.fromSlice 0 0 blRectTable.length
  do
  let len ← c.usub buffer.len 1
  if F32.le x (lit 0) then return lit 0
  if F32.le x (lit (1/4)) then
    let f := x * lit 4
    return ← buffer.lerpUnchecked c blRectMem (f * c.u2f len)
  if F32.le x (lit (1/2)) then
    let f := (lit (1/4) - (x - lit (1/4))) * lit 4
    return ← buffer.lerpUnchecked c blRectMem (f * c.u2f len)
  if F32.le x (lit (3/4)) then
    let f := (x - lit (1/2)) * lit 4
    return lit (-1) * (← buffer.lerpUnchecked c blRectMem (f * c.u2f len))
  if F32.lt x (lit 1) then
    let f := (lit (1/4) - (x - lit (3/4))) * lit 4
    return lit (-1) * (← buffer.lerpUnchecked c blRectMem (f * c.u2f len))
  return lit 0

end Verif.FMath
