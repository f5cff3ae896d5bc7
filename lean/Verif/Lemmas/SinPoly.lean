import Verif.Lemmas.SinBounds
import Mathlib.Analysis.Real.Pi.Bounds

/-! # Helper lemma: how close the polynomial of `sin_i16` is to the sine -/

namespace Verif

theorem sin_poly {t : ℝ} (h0 : 0 ≤ t) (h1 : t ≤ 1) :
    -(1 - t) / 2 - 1 / 40000 ≤
        (102944 * t - 42334 * t ^ 3 + 5223 * t ^ 5 - 307 * t ^ 7 + 10 * t ^ 9) / 2 - 32768 * Real.sin (Real.pi / 2 * t) ∧
      (102944 * t - 42334 * t ^ 3 + 5223 * t ^ 5 - 307 * t ^ 7 + 10 * t ^ 9) / 2 - 32768 * Real.sin (Real.pi / 2 * t) ≤ 1 := by
  have hp1 : (1.570796326794 : ℝ) ≤ Real.pi / 2 := by have := Real.pi_gt_d20; norm_num at this ⊢; linarith
  have hp2 : Real.pi / 2 ≤ (1.570796326795 : ℝ) := by have := Real.pi_lt_d20; norm_num at this ⊢; linarith
  have hx : 0 ≤ Real.pi / 2 * t := by positivity
  have hup := sin_le_taylor hx 7 (by decide)
  have hlo := taylor_le_sin hx 6 (by decide) (by decide)
  simp only [sinT, Finset.sum_range_succ, Finset.sum_range_zero, mul_pow] at hup hlo
  norm_num [Nat.factorial] at hup hlo
  have hb : ∀ k : ℕ, (1.570796326794 : ℝ) ^ k * t ^ k ≤ (Real.pi / 2) ^ k * t ^ k ∧
      (Real.pi / 2) ^ k * t ^ k ≤ (1.570796326795 : ℝ) ^ k * t ^ k := fun k =>
    ⟨mul_le_mul_of_nonneg_right (pow_le_pow_left₀ (by norm_num) hp1 k) (by positivity),
     mul_le_mul_of_nonneg_right (pow_le_pow_left₀ (by positivity) hp2 k) (by positivity)⟩
  have hm : ∀ k : ℕ, t ^ (k + 2) ≤ t ^ k := fun k => pow_le_pow_of_le_one h0 h1 (by omega)
  have b1 := hb 1
  have b3 := hb 3
  have b5 := hb 5
  have b7 := hb 7
  have b9 := hb 9
  have b11 := hb 11
  have b13 := hb 13
  have m1 := hm 1
  have m3 := hm 3
  have m5 := hm 5
  have m7 := hm 7
  have m9 := hm 9
  have m11 := hm 11
  have m13 : 0 ≤ t ^ 13 := by positivity
  have hd : t ^ 9 - t ^ 11 ≤ 2 * (1 - t) := by
    have h9 : t ^ 9 ≤ 1 := pow_le_one₀ h0 h1
    have h90 : 0 ≤ t ^ 9 := by positivity
    have : t ^ 9 - t ^ 11 = t ^ 9 * ((1 - t) * (1 + t)) := by ring
    rw [this]
    have h2 : (1 - t) * (1 + t) ≤ 2 * (1 - t) := by nlinarith
    have h3 : 0 ≤ (1 - t) * (1 + t) := by nlinarith
    nlinarith
  simp only [pow_one] at b1 m1
  generalize Real.sin (Real.pi / 2 * t) = S at *
  generalize Real.pi / 2 = q at *
  norm_num at b1 b3 b5 b7 b9 b11 b13 m1 m3 m5 m7 m9 m11 hup hlo
  constructor <;> linarith

end Verif
