import Verif.Props.Si

/-! # Floats near rationals, and what one more operation does to the distance -/

namespace Verif
open F32

/-- `x` is a finite float within `e` of `v`. -/
def Near (x : F32) (v e : ℚ) : Prop := x.isFin = true ∧ |x.val - v| ≤ e

namespace Near
variable {x y : F32} {v w e f B : ℚ}

theorem mono (h : Near x v e) {e' : ℚ} (h' : e ≤ e') : Near x v e' := ⟨h.1, h.2.trans h'⟩

theorem refl (h : x.isFin = true) : Near x x.val 0 := ⟨h, by simp⟩

theorem nonneg (h : Near x v e) : 0 ≤ e := (abs_nonneg _).trans h.2

theorem abs_le (h : Near x v e) : |x.val| ≤ |v| + e := by
  have := abs_sub_abs_le_abs_sub x.val v
  linarith [h.2]

theorem add (hx : Near x v e) (hy : Near y w f) (hB : |v + w| ≤ B) (h : B + e + f ≤ 2 ^ 100) :
    Near (x + y) (v + w) (e + f + (1 / 2 ^ 150 + (B + e + f) / 2 ^ 24)) := by
  have k : |x.val + y.val - (v + w)| ≤ e + f := by
    rw [show x.val + y.val - (v + w) = (x.val - v) + (y.val - w) by ring]
    exact (abs_add_le _ _).trans (add_le_add hx.2 hy.2)
  have k2 : |x.val + y.val| ≤ B + e + f := by
    have := abs_sub_abs_le_abs_sub (x.val + y.val) (v + w)
    linarith
  obtain ⟨h1, h2⟩ := add_near hx.1 hy.1 k2 h
  refine ⟨h1, ?_⟩
  rw [show (x + y).val - (v + w) = (x.val + y.val - (v + w)) + ((x + y).val - (x.val + y.val)) by ring]
  exact (abs_add_le _ _).trans (add_le_add k h2)

theorem sub (hx : Near x v e) (hy : Near y w f) (hB : |v - w| ≤ B) (h : B + e + f ≤ 2 ^ 100) :
    Near (x - y) (v - w) (e + f + (1 / 2 ^ 150 + (B + e + f) / 2 ^ 24)) := by
  have k : |x.val - y.val - (v - w)| ≤ e + f := by
    rw [show x.val - y.val - (v - w) = (x.val - v) - (y.val - w) by ring]
    exact (abs_sub _ _).trans (add_le_add hx.2 hy.2)
  have k2 : |x.val - y.val| ≤ B + e + f := by
    have := abs_sub_abs_le_abs_sub (x.val - y.val) (v - w)
    linarith
  have d : (x - y).isFin = true ∧ |(x - y).val - (x.val - y.val)| ≤ 1 / 2 ^ 150 + (B + e + f) / 2 ^ 24 := by
    rw [sub_fin hx.1 hy.1]; exact rnd_near k2 h
  refine ⟨d.1, ?_⟩
  rw [show (x - y).val - (v - w) = (x.val - y.val - (v - w)) + ((x - y).val - (x.val - y.val)) by ring]
  exact (abs_add_le _ _).trans (add_le_add k d.2)

theorem mul (hx : Near x v e) (hy : Near y w f) {V W : ℚ} (hV : |v| ≤ V) (hW : |w| ≤ W) (h : (V + e) * (W + f) ≤ 2 ^ 100) :
    Near (x * y) (v * w) (V * f + W * e + e * f + (1 / 2 ^ 150 + (V + e) * (W + f) / 2 ^ 24)) := by
  have V0 := (abs_nonneg _).trans hV
  have W0 := (abs_nonneg _).trans hW
  have k : |x.val * y.val - v * w| ≤ V * f + W * e + e * f := by
    rw [show x.val * y.val - v * w = v * (y.val - w) + w * (x.val - v) + (x.val - v) * (y.val - w) by ring]
    refine (abs_add_three _ _ _).trans ?_
    rw [abs_mul, abs_mul, abs_mul]
    exact add_le_add (add_le_add (mul_le_mul hV hy.2 (abs_nonneg _) V0) (mul_le_mul hW hx.2 (abs_nonneg _) W0))
      (mul_le_mul hx.2 hy.2 (abs_nonneg _) hx.nonneg)
  have k2 : |x.val * y.val| ≤ (V + e) * (W + f) := by
    rw [abs_mul]
    exact mul_le_mul (hx.abs_le.trans (by linarith)) (hy.abs_le.trans (by linarith)) (abs_nonneg _) (by linarith [hx.nonneg])
  obtain ⟨h1, h2⟩ := mul_near hx.1 hy.1 k2 h
  refine ⟨h1, ?_⟩
  rw [show (x * y).val - v * w = (x.val * y.val - v * w) + ((x * y).val - x.val * y.val) by ring]
  exact (abs_add_le _ _).trans (add_le_add k h2)

/-- Division by a float known exactly and of size 1 or more. -/
theorem divExact (hx : Near x v e) (hy : y.isFin = true) (h1 : 1 ≤ |y.val|) {V : ℚ} (hV : |v| ≤ V) (h : V + e ≤ 2 ^ 100) :
    Near (x / y) (v / y.val) (e + (1 / 2 ^ 150 + (V + e) / 2 ^ 24)) := by
  have y0 : y.val ≠ 0 := by rintro h0; rw [h0, abs_zero] at h1; norm_num at h1
  have b : ∀ z : ℚ, |z / y.val| ≤ |z| := fun z => by
    rw [abs_div]; exact div_le_self (abs_nonneg _) h1
  have k2 : |x.val / y.val| ≤ V + e := (b _).trans (hx.abs_le.trans (by linarith))
  obtain ⟨h2, h3⟩ := div_near hx.1 hy y0 k2 h
  refine ⟨h2, ?_⟩
  rw [show (x / y).val - v / y.val = (x.val - v) / y.val + ((x / y).val - x.val / y.val) by ring]
  exact (abs_add_le _ _).trans (add_le_add ((b _).trans hx.2) h3)

end Near

theorem near1 : Near (lit 1 : F32) 1 0 := by have := Near.refl (x := (lit 1 : F32)) lit1_fin; rwa [lit1_val] at this
theorem near2 : Near (lit 2 : F32) 2 0 := by have := Near.refl (x := (lit 2 : F32)) lit2_fin; rwa [lit2_val] at this

end Verif
