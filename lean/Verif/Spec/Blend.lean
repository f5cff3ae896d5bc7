import Verif.F32.Basic

/-! # Specification: a weighted mean of two floats -/

namespace Verif

/-- `r` is the mean of `a` (weight `1 - t`) and `b` (weight `t`), up to the rounding of three float operations. -/
def IsBlend (a b : F32) (t : ℚ) (r : F32) : Prop :=
  r.isFin = true ∧ |r.val - ((1 - t) * a.val + t * b.val)| ≤ 3 / 2 ^ 24 * max |a.val| |b.val| + 1 / 2 ^ 148

end Verif
