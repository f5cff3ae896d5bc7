import Mathlib.Analysis.SpecialFunctions.Trigonometric.Sinc
import Mathlib.Analysis.SpecialFunctions.Integrals.Basic
import Mathlib.MeasureTheory.Function.SpecialFunctions.Sinc

/-! # The real sine integral and its sums -/

namespace Verif
open intervalIntegral

theorem sinc_integral (x : ℝ) : Real.sinc x = ∫ t in (0:ℝ)..1, Real.cos (x * t) := by
  by_cases hx : x = 0
  · subst hx; simp
  · rw [integral_comp_mul_left (fun u => Real.cos u) hx, integral_cos, Real.sinc_of_ne_zero hx]
    simp [div_eq_inv_mul]

theorem sinc_lipschitz (x y : ℝ) : |Real.sinc x - Real.sinc y| ≤ |x - y| / 2 := by
  have ic : ∀ z : ℝ, IntervalIntegrable (fun t => Real.cos (z * t)) MeasureTheory.volume 0 1 :=
    fun z => (by fun_prop : Continuous fun t : ℝ => Real.cos (z * t)).intervalIntegrable _ _
  rw [sinc_integral, sinc_integral, ← integral_sub (ic x) (ic y)]
  refine (abs_integral_le_integral_abs (by norm_num)).trans ?_
  have h2 : ∫ t in (0:ℝ)..1, |x - y| * t = |x - y| / 2 := by
    rw [integral_const_mul, integral_id]; ring
  rw [← h2]
  refine integral_mono_on (by norm_num) ?_ ?_ (fun t ht => ?_)
  · exact (by fun_prop : Continuous fun t : ℝ => |Real.cos (x * t) - Real.cos (y * t)|).intervalIntegrable _ _
  · exact (by fun_prop : Continuous fun t : ℝ => |x - y| * t).intervalIntegrable _ _
  · refine (Real.abs_cos_sub_cos_le _ _).trans ?_
    rw [← sub_mul, abs_mul, abs_of_nonneg ht.1]

theorem sinc_integrable (a b : ℝ) : IntervalIntegrable Real.sinc MeasureTheory.volume a b :=
  Real.continuous_sinc.intervalIntegrable _ _

/-- One panel of two steps. -/
theorem si_panel (a h : ℝ) :
    |h / 3 * (Real.sinc a + 8 * Real.sinc (a + h) + Real.sinc (a + 2 * h)) - 5 / 3 * ∫ t in a..(a + 2 * h), Real.sinc t| ≤
      10 / 3 * h ^ 2 := by
  obtain ⟨c, hc⟩ : ∃ c, c = (Real.sinc a + 8 * Real.sinc (a + h) + Real.sinc (a + 2 * h)) / 10 := ⟨_, rfl⟩
  have hI : ∫ t in a..(a + 2 * h), (c - Real.sinc t) = 2 * h * c - ∫ t in a..(a + 2 * h), Real.sinc t := by
    rw [integral_sub (by simp) (sinc_integrable _ _), integral_const]
    simp only [smul_eq_mul]; ring
  have hb : ‖∫ t in a..(a + 2 * h), (c - Real.sinc t)‖ ≤ |h| * |a + 2 * h - a| := by
    refine norm_integral_le_of_norm_le_const (fun t ht => ?_)
    rw [Real.norm_eq_abs]
    have hd : ∀ u, |u - t| ≤ 2 * |h| → |Real.sinc u - Real.sinc t| ≤ |h| := fun u hu =>
      (sinc_lipschitz u t).trans (by linarith)
    have ht' : (a ≤ t ∧ t ≤ a + 2 * h) ∨ (a + 2 * h ≤ t ∧ t ≤ a) := by
      rcases Set.mem_uIoc.1 ht with h | h
      · exact .inl ⟨h.1.le, h.2⟩
      · exact .inr ⟨h.1.le, h.2⟩
    have k0 : |Real.sinc a - Real.sinc t| ≤ |h| := hd _ (by
      rw [abs_le]; rcases ht' with g | g
      · rw [abs_of_nonneg (by linarith)]; constructor <;> linarith
      · rw [abs_of_nonpos (by linarith)]; constructor <;> linarith)
    have k1 : |Real.sinc (a + h) - Real.sinc t| ≤ |h| := hd _ (by
      rw [abs_le]; rcases ht' with g | g
      · rw [abs_of_nonneg (by linarith)]; constructor <;> linarith
      · rw [abs_of_nonpos (by linarith)]; constructor <;> linarith)
    have k2 : |Real.sinc (a + 2 * h) - Real.sinc t| ≤ |h| := hd _ (by
      rw [abs_le]; rcases ht' with g | g
      · rw [abs_of_nonneg (by linarith)]; constructor <;> linarith
      · rw [abs_of_nonpos (by linarith)]; constructor <;> linarith)
    rw [hc]
    rw [abs_le] at k0 k1 k2 ⊢
    constructor <;> linarith [k0.1, k0.2, k1.1, k1.2, k2.1, k2.2]
  rw [hI, Real.norm_eq_abs] at hb
  have e : h / 3 * (Real.sinc a + 8 * Real.sinc (a + h) + Real.sinc (a + 2 * h)) - 5 / 3 * ∫ t in a..(a + 2 * h), Real.sinc t =
      5 / 3 * (2 * h * c - ∫ t in a..(a + 2 * h), Real.sinc t) := by rw [hc]; ring
  rw [e, abs_mul, abs_of_pos (by norm_num : (0:ℝ) < 5 / 3)]
  have : |h| * |a + 2 * h - a| = 2 * h ^ 2 := by
    rw [show a + 2 * h - a = 2 * h by ring, abs_mul, abs_two, ← sq_abs h]; ring
  linarith

/-- All the panels. -/
theorem si_panels (h : ℝ) (k : ℕ) :
    |h / 3 * (1 + 8 * ∑ j ∈ Finset.range k, Real.sinc ((2 * j + 1 : ℕ) * h) +
        2 * ∑ j ∈ Finset.range k, Real.sinc ((2 * j + 2 : ℕ) * h) - Real.sinc ((2 * k : ℕ) * h)) -
      5 / 3 * ∫ t in (0:ℝ)..((2 * k : ℕ) * h), Real.sinc t| ≤ k * (10 / 3 * h ^ 2) := by
  induction k with
  | zero => simp
  | succ k ih =>
    have hp := si_panel ((2 * k : ℕ) * h) h
    have hadj := integral_add_adjacent_intervals (sinc_integrable 0 ((2 * k : ℕ) * h))
      (sinc_integrable ((2 * k : ℕ) * h) ((2 * k : ℕ) * h + 2 * h))
    have e1 : ((2 * k + 1 : ℕ) : ℝ) * h = (2 * k : ℕ) * h + h := by push_cast; ring
    have e2 : ((2 * k + 2 : ℕ) : ℝ) * h = (2 * k : ℕ) * h + 2 * h := by push_cast; ring
    have e3 : ((2 * (k + 1) : ℕ) : ℝ) * h = (2 * k : ℕ) * h + 2 * h := by push_cast; ring
    rw [Finset.sum_range_succ, Finset.sum_range_succ, e1, e2, e3, ← hadj]
    generalize ((2 * k : ℕ) : ℝ) * h = a at *
    generalize ∑ j ∈ Finset.range k, Real.sinc ((2 * j + 1 : ℕ) * h) = A at *
    generalize ∑ j ∈ Finset.range k, Real.sinc ((2 * j + 2 : ℕ) * h) = B at *
    push_cast
    generalize (∫ t in (0:ℝ)..a, Real.sinc t) = P at *
    generalize (∫ t in a..(a + 2 * h), Real.sinc t) = R at *
    rw [abs_le] at ih hp ⊢
    constructor <;> linarith [ih.1, ih.2, hp.1, hp.2]

end Verif
