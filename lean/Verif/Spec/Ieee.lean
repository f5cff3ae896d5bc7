import Verif.F32.Basic

/-! # IEEE-754 in its own words

What the standard says about binary32, written down a second time from the fields of the word and without the grid of `F32/Basic.lean`:
clause 3.4 (the value of a word), clause 4.3.1 (`roundTiesToEven`) and clause 6.3 (the sign of a zero). -/

namespace Verif.Ieee

/-- The biased exponent, bits 23 to 30. -/
def expo (x : F32) : ℕ := (x.bits.extractLsb' 23 8).toNat
/-- The trailing significand, bits 0 to 22. -/
def frac (x : F32) : ℕ := (x.bits.extractLsb' 0 23).toNat
/-- The sign, bit 31. -/
def sign (x : F32) : Bool := x.bits.getLsbD 31

/-- Clause 3.4: the value of a word with biased exponent below 255. -/
def value (x : F32) : ℚ :=
  (if sign x then -1 else 1) *
    (if expo x = 0 then (2 : ℚ) ^ (-126 : ℤ) * (frac x / 2 ^ 23) else (2 : ℚ) ^ ((expo x : ℤ) - 127) * (1 + frac x / 2 ^ 23))

/-- Clause 3.4: the two kinds of words that are not finite numbers. -/
def infinite (x : F32) : Prop := expo x = 255 ∧ frac x = 0
def notANumber (x : F32) : Prop := expo x = 255 ∧ frac x ≠ 0
def finite (x : F32) : Prop := expo x < 255

/-- Clause 4.3.1, `roundTiesToEven`: the result `r` for an infinitely precise `q`. From `2^127 (2 - 2^-24)` on it is an infinity of the
sign of `q`; below, the finite number nearest to `q`, of two equally near ones that with an even significand. -/
structure Rounds (q : ℚ) (r : F32) : Prop where
  big : (2 : ℚ) ^ 127 * (2 - 2 ^ (-24 : ℤ)) ≤ |q| → infinite r ∧ sign r = decide (q < 0)
  fin : |q| < (2 : ℚ) ^ 127 * (2 - 2 ^ (-24 : ℤ)) → finite r
  near : |q| < (2 : ℚ) ^ 127 * (2 - 2 ^ (-24 : ℤ)) → ∀ y, finite y → |value r - q| ≤ |value y - q|
  even : |q| < (2 : ℚ) ^ 127 * (2 - 2 ^ (-24 : ℤ)) → ∀ y, finite y → value y ≠ value r → |value y - q| = |value r - q| → frac r % 2 = 0
  sgn : q ≠ 0 → sign r = decide (q < 0)

end Verif.Ieee
