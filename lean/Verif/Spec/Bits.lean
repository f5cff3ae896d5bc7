import Verif.Model.Conversion
import Verif.F32.More

/-! # What the components of a float mean, and truncation to a grid -/

namespace Verif

/-- The number denoted by sign, exponent field and mantissa field (IEEE-754, exponent field below 255). -/
def ieeeValue (k : Conversion.F32Components) : ℚ :=
  (if k.sign then -1 else 1) *
    (if k.exponent = 0 then (k.mantissa : ℚ) / 2 ^ 23 * (2:ℚ) ^ (-126 : Int)
     else (1 + (k.mantissa : ℚ) / 2 ^ 23) * (2:ℚ) ^ ((k.exponent : Int) - 127))

/-- `r` is `v` truncated (toward zero, `v ≥ 0`) to a multiple of `step`. -/
def IsTrunc (step v r : ℚ) : Prop := (∃ n : ℕ, r = n * step) ∧ r ≤ v ∧ v < r + step

theorem IsTrunc.unique {step v r s : ℚ} (hs : 0 < step) (h1 : IsTrunc step v r) (h2 : IsTrunc step v s) : r = s := by
  obtain ⟨⟨n, hn⟩, h3, h4⟩ := h1
  obtain ⟨⟨m, hm⟩, h5, h6⟩ := h2
  have e1 : (n : ℚ) < m + 1 := by
    by_contra hc
    have := mul_le_mul_of_nonneg_right (not_lt.1 hc) hs.le
    linarith
  have e2 : (m : ℚ) < n + 1 := by
    by_contra hc
    have := mul_le_mul_of_nonneg_right (not_lt.1 hc) hs.le
    linarith
  have : n = m := by
    have a : n < m + 1 := by exact_mod_cast e1
    have b : m < n + 1 := by exact_mod_cast e2
    omega
  rw [hn, hm, this]

end Verif
