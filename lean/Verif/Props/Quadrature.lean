import Verif.Props.SinAccuracy

/-! # C131: sine and cosine stay in quadrature -/

namespace Verif
open F32 FMath

theorem square_off {s y e : ℝ} (h : |s - y| ≤ e) (hy : |y| ≤ 1) : |s ^ 2 - y ^ 2| ≤ e * (2 + e) := by
  have e0 : 0 ≤ e := (abs_nonneg _).trans h
  have h2 : |s + y| ≤ 2 + e := by
    calc |s + y| = |(s - y) + 2 * y| := by ring_nf
      _ ≤ |s - y| + |2 * y| := abs_add_le _ _
      _ = |s - y| + 2 * |y| := by rw [abs_mul, abs_two]
      _ ≤ _ := by linarith
  rw [show s ^ 2 - y ^ 2 = (s - y) * (s + y) by ring, abs_mul]
  exact mul_le_mul h h2 (abs_nonneg _) e0

/-- C131: the point `(fixed_point_cos x, fixed_point_sin x)` stays near the unit circle, within 3/1000 in power. -/
theorem C131_circle {rem : F32 → F32 → F32} (hrem : RemContract rem) (checks : Bool) {x : F32} (hx : x.isFin = true)
    (hb : |x.val| ≤ 1000) :
    ∃ s c, fixedPointSin checks rem x = .ok s ∧ fixedPointCos checks rem x = .ok c ∧
      |s.val ^ 2 + c.val ^ 2 - 1| ≤ 3 / 1000 := by
  obtain ⟨s, hs, es⟩ := C92_sin hrem checks hx
  obtain ⟨c, hc, ec⟩ := C93_cos hrem checks hx
  refine ⟨s, c, hs, hc, ?_⟩
  have hb' : |(x.val : ℝ)| ≤ 1000 := by exact_mod_cast hb
  have s1 := square_off (es.trans (show _ ≤ 55 / 10 ^ 5 by linarith)) (Real.abs_sin_le_one _)
  have c1 := square_off (ec.trans (show _ ≤ 90 / 10 ^ 5 by linarith)) (Real.abs_cos_le_one _)
  have p := Real.sin_sq_add_cos_sq (x.val : ℝ)
  have key : |((s.val : ℝ)) ^ 2 + (c.val : ℝ) ^ 2 - 1| ≤ 3 / 1000 := by
    have s1 := abs_le.1 s1
    have c1 := abs_le.1 c1
    rw [abs_le]
    constructor <;> norm_num at s1 c1 ⊢ <;> linarith
  have k2 : ((|s.val ^ 2 + c.val ^ 2 - 1| : ℚ) : ℝ) ≤ ((3 / 1000 : ℚ) : ℝ) := by push_cast; exact key
  exact Rat.cast_le.1 k2

/-- An argument in range. -/
example : (lit 3 : F32).isFin = true ∧ |(lit 3 : F32).val| ≤ 1000 ∧ RemContract mmRem :=
  ⟨by decide +kernel, by decide +kernel, mmRem_contract⟩

end Verif
