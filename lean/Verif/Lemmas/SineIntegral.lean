import Mathlib.MeasureTheory.Integral.Prod
import Mathlib.Analysis.SpecialFunctions.Integrals.Basic
import Mathlib.Analysis.SpecialFunctions.Trigonometric.Sinc
import Verif.Lemmas.SinBounds

/-! # Helper lemmas: Simpson's rule for the sine integral -/

namespace Verif
open MeasureTheory

theorem sinc_eq_integral (x : ℝ) : Real.sinc x = ∫ u in (0:ℝ)..1, Real.cos (u * x) := by
  by_cases hx : x = 0
  · subst hx; simp
  · rw [Real.sinc_of_ne_zero hx, intervalIntegral.integral_comp_mul_right _ hx, integral_cos]
    simp [div_eq_inv_mul]

/-- The mean of a cosine over a symmetric interval. -/
theorem integral_cos_mul (m k u : ℝ) : ∫ x in (m - k)..(m + k), Real.cos (u * x) = 2 * k * Real.cos (u * m) * Real.sinc (u * k) := by
  by_cases hu : u = 0
  · subst hu; simp; ring
  by_cases hk : k = 0
  · subst hk; simp
  · rw [intervalIntegral.integral_comp_mul_left _ hu, integral_cos, Real.sinc_of_ne_zero (mul_ne_zero hu hk), mul_add, mul_sub,
      Real.sin_add, Real.sin_sub, smul_eq_mul]
    field_simp
    ring

theorem sinc_simpson {t : ℝ} (ht : 0 ≤ t) : |Real.sinc t - (Real.cos t + 2) / 3| ≤ t ^ 4 / 72 := by
  rcases ht.eq_or_lt with rfl | h0
  · norm_num [Real.sinc_zero]
  have s1 := sin_le_taylor ht 3 (by decide)
  have s2 := taylor_le_sin ht 2 (by decide) (by decide)
  have c1 := cos_le_taylor ht 3 (by decide)
  have c2 := taylor_le_cos ht 2 (by decide) (by decide)
  simp only [sinT, cosT, Finset.sum_range_succ, Finset.sum_range_zero, Nat.factorial] at s1 s2 c1 c2
  norm_num at s1 s2 c1 c2
  have u : Real.sinc t ≤ 1 - t ^ 2 / 6 + t ^ 4 / 120 := by
    rw [Real.sinc_of_ne_zero h0.ne', div_le_iff₀ h0]; nlinarith
  have l : 1 - t ^ 2 / 6 ≤ Real.sinc t := by
    rw [Real.sinc_of_ne_zero h0.ne', le_div_iff₀ h0]; nlinarith
  have : 0 ≤ t ^ 4 := by positivity
  rw [abs_le]; constructor <;> linarith

/-- Simpson's rule on one cell of width `2 k`. -/
theorem simpson_cell (m : ℝ) {k : ℝ} (hk : 0 ≤ k) :
    |(∫ x in (m - k)..(m + k), Real.sinc x) - k / 3 * (Real.sinc (m - k) + 4 * Real.sinc m + Real.sinc (m + k))| ≤ k ^ 5 / 36 := by
  have hc : Continuous (Function.uncurry fun x u : ℝ => Real.cos (u * x)) := by
    simp only [Function.uncurry_def]; fun_prop
  have hsw : (∫ x in (m - k)..(m + k), Real.sinc x) = ∫ u in (0:ℝ)..1, ∫ x in (m - k)..(m + k), Real.cos (u * x) := by
    simp only [sinc_eq_integral]
    refine intervalIntegral_intervalIntegral_swap ?_
    refine (hc.continuousOn.integrableOn_compact ((isCompact_uIcc (a := m - k) (b := m + k)).prod (isCompact_uIcc (a := 0) (b := 1)))).mono_set ?_
    exact Set.prod_mono Set.uIoc_subset_uIcc Set.uIoc_subset_uIcc
  have hcu : ∀ y : ℝ, Continuous fun u : ℝ => Real.cos (u * y) := fun y => by fun_prop
  have hii : ∀ y : ℝ, IntervalIntegrable (fun u : ℝ => Real.cos (u * y)) volume 0 1 := fun y => (hcu y).intervalIntegrable _ _
  have h2 : k / 3 * (Real.sinc (m - k) + 4 * Real.sinc m + Real.sinc (m + k)) =
      ∫ u in (0:ℝ)..1, k / 3 * (Real.cos (u * (m - k)) + 4 * Real.cos (u * m) + Real.cos (u * (m + k))) := by
    rw [intervalIntegral.integral_const_mul, intervalIntegral.integral_add ((hii _).add ((hii _).const_mul 4)) (hii _),
      intervalIntegral.integral_add (hii _) ((hii _).const_mul 4), intervalIntegral.integral_const_mul, ← sinc_eq_integral,
      ← sinc_eq_integral, ← sinc_eq_integral]
  have hsc : Continuous fun u : ℝ => 2 * k * Real.cos (u * m) * Real.sinc (u * k) := by
    have := Real.continuous_sinc
    fun_prop
  rw [hsw, h2]
  simp only [integral_cos_mul]
  rw [← intervalIntegral.integral_sub (hsc.intervalIntegrable _ _) (Continuous.intervalIntegrable (by fun_prop) _ _)]
  have := intervalIntegral.norm_integral_le_of_norm_le_const (a := 0) (b := 1) (C := k ^ 5 / 36)
    (f := fun u : ℝ => 2 * k * Real.cos (u * m) * Real.sinc (u * k) -
      k / 3 * (Real.cos (u * (m - k)) + 4 * Real.cos (u * m) + Real.cos (u * (m + k)))) (fun u hu => by
      rw [Set.uIoc_of_le zero_le_one] at hu
      have e : 2 * k * Real.cos (u * m) * Real.sinc (u * k) -
          k / 3 * (Real.cos (u * (m - k)) + 4 * Real.cos (u * m) + Real.cos (u * (m + k))) =
          2 * k * Real.cos (u * m) * (Real.sinc (u * k) - (Real.cos (u * k) + 2) / 3) := by
        rw [show u * (m - k) = u * m - u * k by ring, show u * (m + k) = u * m + u * k by ring, Real.cos_sub, Real.cos_add]; ring
      have ht : 0 ≤ u * k := mul_nonneg hu.1.le hk
      have hle : u * k ≤ k := by nlinarith [hu.2]
      have hp : (u * k) ^ 4 ≤ k ^ 4 := pow_le_pow_left₀ ht hle 4
      have hs := (sinc_simpson ht).trans (div_le_div_of_nonneg_right hp (by norm_num))
      rw [e, Real.norm_eq_abs, abs_mul, abs_mul, abs_of_nonneg (by positivity : (0:ℝ) ≤ 2 * k)]
      have hcos := Real.abs_cos_le_one (u * m)
      calc 2 * k * |Real.cos (u * m)| * |Real.sinc (u * k) - (Real.cos (u * k) + 2) / 3|
          ≤ 2 * k * 1 * (k ^ 4 / 72) := by gcongr
        _ = k ^ 5 / 36 := by ring)
  simpa using this

/-- Simpson's sum over `n` cells of width `2 k`, with `g j = k / 3 * sinc (j k)`. -/
theorem simpson_sum {k : ℝ} (hk : 0 ≤ k) {g A : ℕ → ℝ} (hg : ∀ j, g j = k / 3 * Real.sinc (j * k)) (hA0 : A 0 = 0)
    (hA : ∀ n, A (n + 1) = A n + (g (2 * n) + 4 * g (2 * n + 1) + g (2 * n + 2))) (n : ℕ) :
    |(∫ x in (0:ℝ)..(2 * n * k), Real.sinc x) - A n| ≤ n * (k ^ 5 / 36) := by
  induction n with
  | zero => simp [hA0]
  | succ n ih =>
    have hi : ∀ a b : ℝ, IntervalIntegrable Real.sinc volume a b := fun a b => Real.continuous_sinc.intervalIntegrable a b
    rw [← intervalIntegral.integral_add_adjacent_intervals (hi 0 (2 * n * k)) (hi _ _), hA]
    have h := simpson_cell ((2 * n + 1) * k) hk
    have e1 : (2 * (n:ℝ) + 1) * k - k = 2 * n * k := by ring
    have e2 : (2 * (n:ℝ) + 1) * k + k = 2 * (n + 1 : ℕ) * k := by push_cast; ring
    rw [e1, e2] at h
    have hg' : k / 3 * (Real.sinc (2 * n * k) + 4 * Real.sinc ((2 * n + 1) * k) + Real.sinc (2 * (n + 1 : ℕ) * k)) =
        g (2 * n) + 4 * g (2 * n + 1) + g (2 * n + 2) := by
      rw [hg, hg, hg]; push_cast; ring_nf
    rw [hg'] at h
    have := abs_add_le ((∫ x in (0:ℝ)..(2 * n * k), Real.sinc x) - A n)
      ((∫ x in (2 * n * k)..(2 * (n + 1 : ℕ) * k), Real.sinc x) - (g (2 * n) + 4 * g (2 * n + 1) + g (2 * n + 2)))
    calc _ = |((∫ x in (0:ℝ)..(2 * n * k), Real.sinc x) - A n) +
      ((∫ x in (2 * n * k)..(2 * (n + 1 : ℕ) * k), Real.sinc x) - (g (2 * n) + 4 * g (2 * n + 1) + g (2 * n + 2)))| := by
          congr 1; push_cast; ring
      _ ≤ _ := by push_cast at this ih h ⊢; linarith

end Verif
