import Verif.Props.DesignFloat
import Mathlib.Analysis.Complex.Polynomial.Basic

/-! # C155: the float biquad with any stable poles, rounding included, over infinitely many samples

C114 and C115 want complex poles and measure their distance from the real axis. Here the poles may be real, equal or complex. With poles
`p` and `q` the quantity `w = z2 + p * z1` is multiplied by `p` in each step and `z1` becomes `q * z1 + w`, plus what the sample and the
rounding add. -/

namespace Verif

open F32 Butterworth

/-- `p` and `q` are the poles of `1 / (1 + a1 z⁻¹ + a2 z⁻²)`, inside the unit circle. -/
structure Poles (a1 a2 : ℝ) (p q : ℂ) : Prop where
  sum : p + q = -(a1 : ℂ)
  prod : p * q = a2
  left : ‖p‖ < 1
  right : ‖q‖ < 1

/-- How far the two poles are from the unit circle. -/
noncomputable def circleMargin (p q : ℂ) : ℝ := (1 - ‖p‖) * (1 - ‖q‖)

theorem Poles.facts {a1 a2 : ℝ} {p q : ℂ} (h : Poles a1 a2 p q) :
    |a1| ≤ 2 ∧ |a2| ≤ 1 ∧ 0 < circleMargin p q ∧ circleMargin p q ≤ 1 ∧ p ^ 2 + a1 * p + a2 = 0 := by
  have hp := norm_nonneg p
  have hq := norm_nonneg q
  have l := h.left
  have r := h.right
  refine ⟨?_, ?_, mul_pos (by linarith) (by linarith), mul_le_one₀ (by linarith) (by linarith) (by linarith), ?_⟩
  · have := norm_add_le p q
    rw [h.sum, norm_neg, Complex.norm_real, Real.norm_eq_abs] at this
    linarith
  · have := norm_mul p q
    rw [h.prod, Complex.norm_real, Real.norm_eq_abs] at this
    rw [this]; exact mul_le_one₀ l.le hq r.le
  · have e : (a1 : ℂ) = -(p + q) := by rw [h.sum]; ring
    rw [e, ← h.prod]; ring

/-- The quantity `p` contracts. -/
def modalOf (p : ℂ) (z1 z2 : ℝ) : ℂ := z2 + p * z1

theorem modalOf_step {a1 a2 : ℝ} {p q : ℂ} (h : Poles a1 a2 p q) (z1 z2 u0 u1 u2 e1 e2 : ℝ) :
    ‖modalOf p (u1 + z2 - a1 * (u0 + z1) + e1) (u2 - a2 * (u0 + z1) + e2)‖ ≤
      ‖p‖ * ‖modalOf p z1 z2‖ + (3 * |u0| + |u1| + |u2|) + (|e1| + |e2|) ∧
    |u1 + z2 - a1 * (u0 + z1) + e1| ≤ ‖q‖ * |z1| + ‖modalOf p z1 z2‖ + (2 * |u0| + |u1|) + |e1| := by
  obtain ⟨b1, b2, -, -, hq⟩ := h.facts
  have hp1 := h.left.le
  have n1 : ∀ t : ℝ, ‖p * (t : ℂ)‖ ≤ |t| := by
    intro t
    rw [norm_mul, Complex.norm_real, Real.norm_eq_abs]
    exact mul_le_of_le_one_left (abs_nonneg _) hp1
  constructor
  · have e : modalOf p (u1 + z2 - a1 * (u0 + z1) + e1) (u2 - a2 * (u0 + z1) + e2) =
        p * modalOf p z1 z2 + ((u2 - a2 * u0 : ℝ) + p * (u1 - a1 * u0 : ℝ)) + (e2 + p * e1) := by
      simp only [modalOf]; push_cast
      linear_combination (-(z1 : ℂ)) * hq
    rw [e]
    have k1 := norm_add_le (p * modalOf p z1 z2 + (((u2 - a2 * u0 : ℝ) : ℂ) + p * (u1 - a1 * u0 : ℝ))) ((e2 : ℂ) + p * e1)
    have k2 := norm_add_le (p * modalOf p z1 z2) (((u2 - a2 * u0 : ℝ) : ℂ) + p * (u1 - a1 * u0 : ℝ))
    have k3 := norm_add_le (((u2 - a2 * u0 : ℝ) : ℂ)) (p * (u1 - a1 * u0 : ℝ))
    have k4 := norm_add_le (e2 : ℂ) (p * e1)
    rw [Complex.norm_real, Real.norm_eq_abs] at k3 k4
    have k5 := n1 (u1 - a1 * u0)
    have k6 := n1 e1
    have k7 := abs_sub u2 (a2 * u0)
    have k8 := abs_sub u1 (a1 * u0)
    rw [abs_mul] at k7 k8
    have k9 := mul_le_mul_of_nonneg_right b1 (abs_nonneg u0)
    have k10 := mul_le_mul_of_nonneg_right b2 (abs_nonneg u0)
    rw [norm_mul p (modalOf p z1 z2)] at k2
    linarith
  · have e : ((u1 + z2 - a1 * (u0 + z1) + e1 : ℝ) : ℂ) = q * z1 + modalOf p z1 z2 + (u1 - a1 * u0 + e1 : ℝ) := by
      have e' : (a1 : ℂ) = -(p + q) := by rw [h.sum]; ring
      simp only [modalOf]; push_cast
      rw [e']; ring
    have k0 := congrArg norm e
    rw [Complex.norm_real, Real.norm_eq_abs] at k0
    rw [k0]
    have k1 := norm_add_le (q * (z1 : ℂ) + modalOf p z1 z2) (u1 - a1 * u0 + e1 : ℝ)
    have k2 := norm_add_le (q * (z1 : ℂ)) (modalOf p z1 z2)
    rw [norm_mul, Complex.norm_real, Real.norm_eq_abs] at k2
    rw [Complex.norm_real (u1 - a1 * u0 + e1), Real.norm_eq_abs] at k1
    have k3 := abs_add_le (u1 - a1 * u0) e1
    have k8 := abs_sub u1 (a1 * u0)
    rw [abs_mul] at k8
    have k9 := mul_le_mul_of_nonneg_right b1 (abs_nonneg u0)
    linarith

theorem modalOf_z2 {p : ℂ} (hp : ‖p‖ ≤ 1) (z1 z2 : ℝ) : |z2| ≤ ‖modalOf p z1 z2‖ + |z1| := by
  have e : (z2 : ℂ) = modalOf p z1 z2 - p * z1 := by simp [modalOf]
  have := norm_sub_le (modalOf p z1 z2) (p * z1)
  rw [← e, norm_mul, Complex.norm_real, Complex.norm_real, Real.norm_eq_abs, Real.norm_eq_abs] at this
  have h4 : ‖p‖ * |z1| ≤ |z1| := mul_le_of_le_one_left (abs_nonneg _) hp
  linarith

/-- One step of the float filter, from a state within the invariant. -/
theorem stable_step {f : Biquad F32} {x : F32} {G : ℚ} {p q : ℂ} (hc : f.coeffs.Fin) (hP : Poles f.coeffs.a1.val f.coeffs.a2.val p q)
    (hM : 1 / 2 ^ 16 ≤ circleMargin p q)
    (hx : x.isFin = true) (h1 : f.z1.isFin = true) (h2 : f.z2.isFin = true) (G0 : 1 / 2 ^ 120 ≤ G) (G1 : G ≤ 2 ^ 60)
    (hb : f.coeffs.FeedsAtMost x G) (hw : ‖modalOf p f.z1.val f.z2.val‖ ≤ 9 * (G / (1 - ‖p‖)))
    (hz : |(f.z1.val : ℝ)| ≤ 16 * (G / circleMargin p q)) :
    ∃ e0 e1 e2 : ℝ, (f.process x).2.isFin = true ∧ (f.process x).1.z1.isFin = true ∧ (f.process x).1.z2.isFin = true ∧
      ((f.process x).2.val : ℝ) = f.coeffs.b0.val * x.val + f.z1.val + e0 ∧
      ((f.process x).1.z1.val : ℝ) =
        f.coeffs.b1.val * x.val + f.z2.val - f.coeffs.a1.val * (f.coeffs.b0.val * x.val + f.z1.val) + e1 ∧
      ((f.process x).1.z2.val : ℝ) = f.coeffs.b2.val * x.val - f.coeffs.a2.val * (f.coeffs.b0.val * x.val + f.z1.val) + e2 ∧
      |e0| ≤ 79 * (G / circleMargin p q) / 2 ^ 24 ∧ |e1| ≤ 547 * (G / circleMargin p q) / 2 ^ 24 ∧
      |e1| + |e2| ≤ 834 * (G / circleMargin p q) / 2 ^ 24 := by
  obtain ⟨b1, b2, M0, M1, -⟩ := hP.facts
  have d0 : 0 < 1 - ‖p‖ := by linarith [hP.left]
  have d1 : 1 - ‖p‖ ≤ 1 := by linarith [norm_nonneg p]
  have e0 : 0 < 1 - ‖q‖ := by linarith [hP.right]
  have e1 : 1 - ‖q‖ ≤ 1 := by linarith [norm_nonneg q]
  have hG0 : (0:ℝ) < G := by exact_mod_cast lt_of_lt_of_le (by norm_num) G0
  have hdG : (G : ℝ) / (1 - ‖p‖) ≤ G / circleMargin p q :=
    div_le_div_of_nonneg_left hG0.le M0 (mul_le_of_le_one_right d0.le e1)
  have hGM : (G : ℝ) ≤ G / circleMargin p q := by
    rw [le_div_iff₀ M0]; exact mul_le_of_le_one_right hG0.le M1
  have hGM' : (G : ℝ) / circleMargin p q ≤ 2 ^ 16 * 2 ^ 60 := by
    rw [div_le_iff₀ M0]
    have k1 : (G:ℝ) ≤ 2 ^ 60 := by exact_mod_cast G1
    nlinarith
  have hZ2 : |(f.z2.val : ℝ)| ≤ 25 * (G / circleMargin p q) := by
    have := modalOf_z2 hP.left.le f.z1.val f.z2.val
    linarith
  obtain ⟨g0, g1, g2⟩ := hb
  have hS : ((G + max |f.z1.val| |f.z2.val| : ℚ) : ℝ) ≤ 26 * (G / circleMargin p q) := by
    push_cast
    have : max |(f.z1.val : ℝ)| |(f.z2.val : ℝ)| ≤ 25 * (G / circleMargin p q) := max_le (by linarith) hZ2
    linarith
  have hS' : G + max |f.z1.val| |f.z2.val| ≤ 2 ^ 90 := by
    have : ((G + max |f.z1.val| |f.z2.val| : ℚ) : ℝ) ≤ 2 ^ 90 := hS.trans (by norm_num at hGM' ⊢; linarith)
    exact_mod_cast this
  obtain ⟨o1, o2, o3, k0, k1, k2⟩ := process_error hc hx h1 h2 hS' (by exact_mod_cast b1) (by exact_mod_cast b2)
    (add_le_add g0 (le_max_left _ _)) (add_le_add g1 (le_max_right _ _))
    (by linarith [le_max_left |f.z1.val| |f.z2.val|, abs_nonneg f.z1.val])
  have hη : (1:ℝ) / 2 ^ 150 ≤ 1 / 2 ^ 30 * G := by
    have : ((1:ℝ) / 2 ^ 120) ≤ G := by
      have := (Rat.cast_le (K := ℝ)).2 G0; push_cast at this; exact this
    nlinarith
  replace k0 := (Rat.cast_le (K := ℝ)).2 k0
  replace k1 := (Rat.cast_le (K := ℝ)).2 k1
  replace k2 := (Rat.cast_le (K := ℝ)).2 k2
  generalize hSg : G + max |f.z1.val| |f.z2.val| = S at *
  push_cast at k0 k1 k2
  have e3 : (3:ℝ) / 2 ^ 150 = 3 * (1 / 2 ^ 150) := by ring
  have e13 : (13:ℝ) / 2 ^ 150 = 13 * (1 / 2 ^ 150) := by ring
  have e8 : (8:ℝ) / 2 ^ 150 = 8 * (1 / 2 ^ 150) := by ring
  rw [e3] at k0
  rw [e13] at k1
  rw [e8] at k2
  generalize (1:ℝ) / 2 ^ 150 = η at *
  refine ⟨_, _, _, o1, o2, o3, (add_sub_cancel _ _).symm, (add_sub_cancel _ _).symm, (add_sub_cancel _ _).symm, k0.trans ?_,
    k1.trans ?_, (add_le_add k1 k2).trans ?_⟩
  · linarith
  · linarith
  · linarith

/-- The invariant: the float state is bounded and close to the exact one. -/
theorem stable_inv {co : BiquadCoeffs F32} {x : ℕ → F32} {G : ℚ} {p q : ℂ} (hc : co.Fin) (hP : Poles co.a1.val co.a2.val p q)
    (hM : 1 / 2 ^ 16 ≤ circleMargin p q)
    (hx : ∀ n, (x n).isFin = true) (G0 : 1 / 2 ^ 120 ≤ G) (G1 : G ≤ 2 ^ 60) (hb : ∀ n, co.FeedsAtMost (x n) G) (n : ℕ) :
    ((Biquad.new co).stateAt x n).z1.isFin = true ∧ ((Biquad.new co).stateAt x n).z2.isFin = true ∧
    ‖modalOf p ((Biquad.new co).stateAt x n).z1.val ((Biquad.new co).stateAt x n).z2.val‖ ≤ 9 * (G / (1 - ‖p‖)) ∧
    |(((Biquad.new co).stateAt x n).z1.val : ℝ)| ≤ 16 * (G / circleMargin p q) ∧
    ‖modalOf p
        (((Biquad.new co).stateAt x n).z1.val - ((Biquad.new co.real).stateAt (fun k => ((x k).val : ℝ)) n).z1)
        (((Biquad.new co).stateAt x n).z2.val - ((Biquad.new co.real).stateAt (fun k => ((x k).val : ℝ)) n).z2)‖ ≤
      834 * (G / circleMargin p q) / 2 ^ 24 / (1 - ‖p‖) ∧
    |(((Biquad.new co).stateAt x n).z1.val : ℝ) - ((Biquad.new co.real).stateAt (fun k => ((x k).val : ℝ)) n).z1| ≤
      1381 * (G / circleMargin p q ^ 2) / 2 ^ 24 := by
  obtain ⟨b1, b2, M0, M1, -⟩ := hP.facts
  have d0 : 0 < 1 - ‖p‖ := by linarith [hP.left]
  have d1 : 1 - ‖p‖ ≤ 1 := by linarith [norm_nonneg p]
  have e0 : 0 < 1 - ‖q‖ := by linarith [hP.right]
  have e1 : 1 - ‖q‖ ≤ 1 := by linarith [norm_nonneg q]
  have hG0 : (0:ℝ) < G := by exact_mod_cast lt_of_lt_of_le (by norm_num) G0
  obtain ⟨H, hH⟩ : ∃ H : ℝ, H = G / circleMargin p q := ⟨_, rfl⟩
  have H0 : 0 < H := by rw [hH]; exact div_pos hG0 M0
  have GH : (G : ℝ) = (1 - ‖p‖) * (1 - ‖q‖) * H := by
    rw [hH]; change _ = circleMargin p q * _; rw [mul_div_cancel₀ _ M0.ne']
  have Gp : (G : ℝ) / (1 - ‖p‖) = (1 - ‖q‖) * H := by rw [GH]; field_simp
  have HG : H ≤ 2 ^ 16 * G := by
    rw [hH, div_le_iff₀ M0]; nlinarith
  obtain ⟨J, hJ⟩ : ∃ J : ℝ, J = G / circleMargin p q ^ 2 := ⟨_, rfl⟩
  have HJ : H = (1 - ‖p‖) * (1 - ‖q‖) * J := by
    rw [hH, hJ]; change _ = circleMargin p q * _; field_simp
  have Hp : H / (1 - ‖p‖) = (1 - ‖q‖) * J := by rw [HJ]; field_simp
  have J0 : 0 < J := by rw [hJ]; exact div_pos hG0 (pow_pos M0 2)
  rw [← hH, ← hJ, Gp]
  have t1 : 834 * H / 2 ^ 24 / (1 - ‖p‖) = 834 / 2 ^ 24 * ((1 - ‖q‖) * J) := by rw [← Hp]; ring
  rw [t1]
  induction n with
  | zero =>
    have hz : (lit 0 : ℝ) = 0 := Rat.cast_zero
    refine ⟨lit0_fin, lit0_fin, ?_, ?_, ?_, ?_⟩
    · simp only [Biquad.stateAt, Biquad.new, lit0_val, modalOf, Rat.cast_zero, Complex.ofReal_zero, mul_zero, add_zero, norm_zero]
      positivity
    · simp only [Biquad.stateAt, Biquad.new, lit0_val, Rat.cast_zero, abs_zero]
      positivity
    · simp only [Biquad.stateAt, Biquad.new, lit0_val, modalOf, hz, Rat.cast_zero, sub_zero, Complex.ofReal_zero, mul_zero, add_zero,
        norm_zero]
      positivity
    · simp only [Biquad.stateAt, Biquad.new, lit0_val, hz, Rat.cast_zero, sub_zero, abs_zero]
      positivity
  | succ n ih =>
    obtain ⟨i1, i2, i3, i4, i5, i6⟩ := ih
    have hco : ((Biquad.new co).stateAt x n).coeffs = co := coeffs_stateAt _ _ _
    have hcr : ((Biquad.new co.real).stateAt (fun k => ((x k).val : ℝ)) n).coeffs = co.real := coeffs_stateAt _ _ _
    obtain ⟨r0, r1, r2, o1, o2, o3, v0, v1, v2, k0, k1, k2⟩ := stable_step (f := (Biquad.new co).stateAt x n) (x := x n) (G := G)
      (by rw [hco]; exact hc) (by rw [hco]; exact hP) hM (hx n) i1 i2 G0 G1 (by rw [hco]; exact hb n) (by rw [Gp]; exact i3)
      (by rw [← hH]; exact i4)
    rw [hco] at v0 v1 v2
    rw [← hH] at k0 k1 k2
    obtain ⟨g0, g1, g2⟩ := hb n
    replace g0 := (Rat.cast_le (K := ℝ)).2 g0
    replace g1 := (Rat.cast_le (K := ℝ)).2 g1
    replace g2 := (Rat.cast_le (K := ℝ)).2 g2
    push_cast at g0 g1 g2
    obtain ⟨s1, s2⟩ := modalOf_step hP ((Biquad.new co).stateAt x n).z1.val ((Biquad.new co).stateAt x n).z2.val
        (co.b0.val * (x n).val) (co.b1.val * (x n).val) (co.b2.val * (x n).val) r1 r2
    rw [← v1] at s1 s2
    rw [← v2] at s1
    obtain ⟨s3, s4⟩ := modalOf_step hP
        (((Biquad.new co).stateAt x n).z1.val - ((Biquad.new co.real).stateAt (fun k => ((x k).val : ℝ)) n).z1)
        (((Biquad.new co).stateAt x n).z2.val - ((Biquad.new co.real).stateAt (fun k => ((x k).val : ℝ)) n).z2) 0 0 0 r1 r2
    have w1 : (((Biquad.new co).stateAt x (n + 1)).z1.val : ℝ) - ((Biquad.new co.real).stateAt (fun k => ((x k).val : ℝ)) (n + 1)).z1 =
        0 + (((Biquad.new co).stateAt x n).z2.val - ((Biquad.new co.real).stateAt (fun k => ((x k).val : ℝ)) n).z2) -
        co.a1.val * (0 + (((Biquad.new co).stateAt x n).z1.val - ((Biquad.new co.real).stateAt (fun k => ((x k).val : ℝ)) n).z1)) + r1 := by
      simp only [Biquad.stateAt]
      rw [v1]
      simp only [Biquad.process, hcr]
      simp only [BiquadCoeffs.real, BiquadCoeffs.map]
      ring
    have w2 : (((Biquad.new co).stateAt x (n + 1)).z2.val : ℝ) - ((Biquad.new co.real).stateAt (fun k => ((x k).val : ℝ)) (n + 1)).z2 =
        0 - co.a2.val * (0 + (((Biquad.new co).stateAt x n).z1.val - ((Biquad.new co.real).stateAt (fun k => ((x k).val : ℝ)) n).z1)) + r2 := by
      simp only [Biquad.stateAt]
      rw [v2]
      simp only [Biquad.process, hcr]
      simp only [BiquadCoeffs.real, BiquadCoeffs.map]
      ring
    rw [← w1, ← w2] at s3
    rw [← w1] at s4
    simp only [abs_zero, mul_zero, add_zero] at s3 s4
    -- the polynomial facts
    have P0 := norm_nonneg p
    have Q0 := norm_nonneg q
    have m1 := mul_le_mul_of_nonneg_left i3 P0
    have m2 := mul_le_mul_of_nonneg_left i4 Q0
    have m3 := mul_le_mul_of_nonneg_left i5 P0
    have m4 := mul_le_mul_of_nonneg_left i6 Q0
    have eH : 0 < (1 - ‖q‖) * H := mul_pos e0 H0
    have eJ : 0 < (1 - ‖q‖) * J := mul_pos e0 J0
    have c1 : ‖p‖ * ((1 - ‖q‖) * H) = (1 - ‖q‖) * H - G := by rw [GH]; ring
    have c2 : ‖p‖ * ((1 - ‖q‖) * J) = (1 - ‖q‖) * J - H := by rw [HJ]; ring
    have c3 : ‖q‖ * H = H - (1 - ‖q‖) * H := by ring
    have c4 : ‖q‖ * J = J - (1 - ‖q‖) * J := by ring
    have c5 : (G : ℝ) ≤ (1 - ‖q‖) * H := by rw [GH, mul_assoc]; exact mul_le_of_le_one_left eH.le d1
    have c6 : H ≤ (1 - ‖q‖) * J := by rw [HJ, mul_assoc]; exact mul_le_of_le_one_left eJ.le d1
    have c7 : ‖p‖ * (9 * ((1 - ‖q‖) * H)) = 9 * ((1 - ‖q‖) * H) - 9 * G := by linear_combination 9 * c1
    have c8 : ‖p‖ * (834 / 2 ^ 24 * ((1 - ‖q‖) * J)) = 834 / 2 ^ 24 * ((1 - ‖q‖) * J) - 834 / 2 ^ 24 * H := by
      linear_combination (834 / 2 ^ 24) * c2
    have c9 : ‖q‖ * (16 * H) = 16 * H - 16 * ((1 - ‖q‖) * H) := by ring
    have c10 : ‖q‖ * (1381 * J / 2 ^ 24) = 1381 * J / 2 ^ 24 - 1381 / 2 ^ 24 * ((1 - ‖q‖) * J) := by ring
    rw [c7] at m1
    rw [c9] at m2
    rw [c8] at m3
    rw [c10] at m4
    refine ⟨o2, o3, s1.trans ?_, s2.trans ?_, s3.trans ?_, s4.trans ?_⟩
    · linarith
    · linarith
    · linarith
    · linarith

/-- C155: from rest, whatever the infinite input and wherever in the unit circle the poles, the float biquad never produces an infinity or
a NaN and its output stays below a fixed multiple of the largest feed-forward product. -/
theorem C155_bounded {co : BiquadCoeffs F32} {x : ℕ → F32} {G : ℚ} {p q : ℂ} (hc : co.Fin) (hP : Poles co.a1.val co.a2.val p q)
    (hM : 1 / 2 ^ 16 ≤ circleMargin p q)
    (hx : ∀ n, (x n).isFin = true) (G0 : 1 / 2 ^ 120 ≤ G) (G1 : G ≤ 2 ^ 60) (hb : ∀ n, co.FeedsAtMost (x n) G) (n : ℕ) :
    ((Biquad.new co).outAt x n).isFin = true ∧ |(((Biquad.new co).outAt x n).val : ℝ)| ≤ 18 * (G / circleMargin p q) := by
  obtain ⟨-, -, M0, M1, -⟩ := hP.facts
  have hG0 : (0:ℝ) < G := by exact_mod_cast lt_of_lt_of_le (by norm_num) G0
  have hGM : (G : ℝ) ≤ G / circleMargin p q := by
    rw [le_div_iff₀ M0]; exact mul_le_of_le_one_right hG0.le M1
  obtain ⟨i1, i2, i3, i4, -⟩ := stable_inv hc hP hM hx G0 G1 hb n
  have hco : ((Biquad.new co).stateAt x n).coeffs = co := coeffs_stateAt _ _ _
  obtain ⟨e0, e1, e2, o1, o2, o3, v0, v1, v2, k0, k1, k2⟩ := stable_step (f := (Biquad.new co).stateAt x n) (x := x n) (G := G)
    (by rw [hco]; exact hc) (by rw [hco]; exact hP) hM (hx n) i1 i2 G0 G1 (by rw [hco]; exact hb n) i3 i4
  rw [hco] at v0
  have g0 := (Rat.cast_le (K := ℝ)).2 (hb n).1
  push_cast at g0
  refine ⟨o1, ?_⟩
  unfold Biquad.outAt
  rw [v0]
  refine (abs_add_three _ _ _).trans ?_
  linarith

/-- C155: the float output follows the output of the same filter in exact arithmetic for ever. -/
theorem C155_tracks {co : BiquadCoeffs F32} {x : ℕ → F32} {G : ℚ} {p q : ℂ} (hc : co.Fin) (hP : Poles co.a1.val co.a2.val p q)
    (hM : 1 / 2 ^ 16 ≤ circleMargin p q)
    (hx : ∀ n, (x n).isFin = true) (G0 : 1 / 2 ^ 120 ≤ G) (G1 : G ≤ 2 ^ 60) (hb : ∀ n, co.FeedsAtMost (x n) G) (n : ℕ) :
    |(((Biquad.new co).outAt x n).val : ℝ) - (Biquad.new co.real).outAt (fun k => ((x k).val : ℝ)) n| ≤
      G / circleMargin p q ^ 2 / 2 ^ 13 := by
  obtain ⟨-, -, M0, M1, -⟩ := hP.facts
  have hG0 : (0:ℝ) < G := by exact_mod_cast lt_of_lt_of_le (by norm_num) G0
  obtain ⟨i1, i2, i3, i4, -, i6⟩ := stable_inv hc hP hM hx G0 G1 hb n
  have hco : ((Biquad.new co).stateAt x n).coeffs = co := coeffs_stateAt _ _ _
  have hcr : ((Biquad.new co.real).stateAt (fun k => ((x k).val : ℝ)) n).coeffs = co.real := coeffs_stateAt _ _ _
  obtain ⟨e0, e1, e2, o1, o2, o3, v0, v1, v2, k0, k1, k2⟩ := stable_step (f := (Biquad.new co).stateAt x n) (x := x n) (G := G)
    (by rw [hco]; exact hc) (by rw [hco]; exact hP) hM (hx n) i1 i2 G0 G1 (by rw [hco]; exact hb n) i3 i4
  rw [hco] at v0
  have hGM : (G : ℝ) / circleMargin p q ≤ G / circleMargin p q ^ 2 := by
    refine div_le_div_of_nonneg_left hG0.le (pow_pos M0 2) ?_
    rw [sq]; exact mul_le_of_le_one_left M0.le M1
  have hp : 0 < (G : ℝ) / circleMargin p q ^ 2 := div_pos hG0 (pow_pos M0 2)
  have w : (((Biquad.new co).outAt x n).val : ℝ) - (Biquad.new co.real).outAt (fun k => ((x k).val : ℝ)) n =
      (((Biquad.new co).stateAt x n).z1.val - ((Biquad.new co.real).stateAt (fun k => ((x k).val : ℝ)) n).z1) + e0 := by
    unfold Biquad.outAt
    rw [v0]
    simp only [Biquad.process, hcr]
    simp only [BiquadCoeffs.real, BiquadCoeffs.map]
    ring
  rw [w]
  refine (abs_add_le _ _).trans ?_
  linarith

/-- Every stable pair of real coefficients has such poles, and how large the margin is at least. -/
theorem poles_exist {a1 a2 m : ℝ} (h1 : 0 < 1 + a1 + a2) (h2 : 0 < 1 - a1 + a2) (h3 : a2 < 1)
    (m1 : m ≤ (1 + a1 + a2) * (1 - a1 + a2) / 4) (m2 : m ≤ (1 - a2) ^ 2 / 4) :
    ∃ p q, Poles a1 a2 p q ∧ m ≤ circleMargin p q := by
  rcases le_total (4 * a2) (a1 ^ 2) with hd | hd
  · have s0 := Real.sqrt_nonneg (a1 ^ 2 - 4 * a2)
    have s2 := Real.sq_sqrt (sub_nonneg.2 hd)
    generalize √(a1 ^ 2 - 4 * a2) = s at *
    obtain ⟨p, hp⟩ : ∃ p, p = (-a1 + s) / 2 := ⟨_, rfl⟩
    obtain ⟨q, hq⟩ : ∃ q, q = (-a1 - s) / 2 := ⟨_, rfl⟩
    have sum : p + q = -a1 := by rw [hp, hq]; ring
    have prod : p * q = a2 := by rw [hp, hq]; linear_combination (-1 / 4) * s2
    have ab : |p| * |q| = |a2| := by rw [← abs_mul, prod]
    have a2n : |a2| < 1 := by rw [abs_lt]; exact ⟨by linarith, h3⟩
    have a20 := abs_nonneg a2
    have p0 := abs_nonneg p
    have q0 := abs_nonneg q
    have tt : (|p| + |q|) ^ 2 = a1 ^ 2 - 2 * a2 + 2 * |a2| := by
      have e1 := sq_abs p
      have e2 := sq_abs q
      have e3 : a1 = -(p + q) := by rw [sum]; ring
      rw [e3]
      linear_combination e1 + e2 + 2 * ab - 2 * prod
    have X : (1 + |a2| - (|p| + |q|)) * (1 + |a2| + (|p| + |q|)) = (1 + a1 + a2) * (1 - a1 + a2) := by
      have := sq_abs a2
      linear_combination this - tt
    have Xp := mul_pos h1 h2
    have u : 0 < 1 + |a2| - (|p| + |q|) := by
      by_contra hc
      have := mul_nonpos_of_nonpos_of_nonneg (not_lt.1 hc) (show 0 ≤ 1 + |a2| + (|p| + |q|) by linarith)
      linarith
    have fac : (1 - |p|) * (1 - |q|) = 1 + |a2| - (|p| + |q|) := by rw [← ab]; ring
    have pl : |p| < 1 := by
      by_contra hc
      have k1 : 1 - |p| ≤ 0 := by linarith
      have k2 : 1 - |q| < 0 := by
        by_contra hk
        have := mul_nonpos_of_nonpos_of_nonneg k1 (not_lt.1 hk)
        linarith
      nlinarith
    have ql : |q| < 1 := by
      by_contra hc
      have := mul_nonpos_of_nonneg_of_nonpos (show 0 ≤ 1 - |p| by linarith) (show 1 - |q| ≤ 0 by linarith)
      linarith
    refine ⟨p, q, ⟨by exact_mod_cast sum, by exact_mod_cast prod, by rw [Complex.norm_real]; exact pl, by rw [Complex.norm_real]; exact ql⟩, ?_⟩
    unfold circleMargin
    rw [Complex.norm_real, Complex.norm_real, Real.norm_eq_abs, Real.norm_eq_abs, fac]
    refine m1.trans ?_
    rw [← X]
    have := mul_le_mul_of_nonneg_left (show 1 + |a2| + (|p| + |q|) ≤ 4 by linarith) u.le
    linarith
  · have ha2 : 0 ≤ a2 := by nlinarith [sq_nonneg a1]
    have d0 : 0 ≤ a2 - a1 ^ 2 / 4 := by linarith
    have s2 := Real.sq_sqrt d0
    generalize √(a2 - a1 ^ 2 / 4) = s at *
    have nrm : ∀ t : ℝ, t ^ 2 = s ^ 2 → ‖(⟨-a1 / 2, t⟩ : ℂ)‖ = √a2 := by
      intro t ht
      rw [Complex.norm_def, Complex.normSq_apply]
      congr 1
      simp only
      nlinarith
    have r2 := Real.sq_sqrt ha2
    have r0 := Real.sqrt_nonneg a2
    have r1 : √a2 < 1 := by nlinarith
    refine ⟨⟨-a1 / 2, s⟩, ⟨-a1 / 2, -s⟩, ⟨?_, ?_, by rw [nrm s rfl]; exact r1, by rw [nrm (-s) (by ring)]; exact r1⟩, ?_⟩
    · apply Complex.ext <;> simp
    · apply Complex.ext
      · simp only [Complex.mul_re, Complex.ofReal_re]; linear_combination s2
      · simp only [Complex.mul_im, Complex.ofReal_im]; ring
    · unfold circleMargin
      rw [nrm s rfl, nrm (-s) (by ring)]
      refine m2.trans ?_
      generalize √a2 = r at *
      rw [← r2]
      have : (1 - r ^ 2) ^ 2 = (1 - r) ^ 2 * (1 + r) ^ 2 := by ring
      rw [this]
      have k : (1 + r) ^ 2 ≤ 4 := by nlinarith
      nlinarith [mul_le_mul_of_nonneg_left k (sq_nonneg (1 - r))]

/-- C155: every stable filter with finite coefficients has a margin; how large it is depends on the coefficients only. -/
theorem C155_margin {co : BiquadCoeffs F32} (h : co.real.Stable) : ∃ p q, Poles co.a1.val co.a2.val p q ∧ 0 < circleMargin p q := by
  obtain ⟨s, hs⟩ := IsAlgClosed.exists_eq_mul_self (((co.a1.val : ℝ) : ℂ) ^ 2 - 4 * ((co.a2.val : ℝ) : ℂ))
  have root : ∀ z : ℂ, z ^ 2 + ((co.a1.val : ℝ) : ℂ) * z + ((co.a2.val : ℝ) : ℂ) = 0 → ‖z‖ < 1 := h
  have hp : ‖(-((co.a1.val : ℝ) : ℂ) + s) / 2‖ < 1 := root _ (by linear_combination (-1 / 4) * hs)
  have hq : ‖(-((co.a1.val : ℝ) : ℂ) - s) / 2‖ < 1 := root _ (by linear_combination (-1 / 4) * hs)
  have hP : Poles co.a1.val co.a2.val ((-((co.a1.val : ℝ) : ℂ) + s) / 2) ((-((co.a1.val : ℝ) : ℂ) - s) / 2) :=
    ⟨by ring, by linear_combination (1 / 4) * hs, hp, hq⟩
  exact ⟨_, _, hP, hP.facts.2.2.1⟩

/-- A double real pole at 3/4, with margin 1/16; C114 says nothing about it. -/
example : Poles (-3 / 2) (9 / 16) (3 / 4) (3 / 4) ∧ circleMargin (3 / 4) (3 / 4) = 1 / 16 ∧ poleMargin (-3 / 2) (9 / 16) = 0 := by
  have n : ‖(3 / 4 : ℂ)‖ = 3 / 4 := by
    rw [show (3 / 4 : ℂ) = ((3 / 4 : ℝ) : ℂ) by push_cast; rfl, Complex.norm_real]; norm_num
  refine ⟨⟨by push_cast; norm_num, by push_cast; norm_num, by rw [n]; norm_num, by rw [n]; norm_num⟩, ?_, ?_⟩
  · unfold circleMargin; rw [n]; norm_num
  · unfold poleMargin; norm_num

/-- Fed with ones, the float filter `1 / (1 - 3/2 z⁻¹ + 9/16 z⁻²)` stays below 288, for ever. -/
example (n : ℕ) : let co : BiquadCoeffs F32 := ⟨lit 1, lit 0, lit 0, lit (-3 / 2), lit (9 / 16)⟩
    |(((Biquad.new co).outAt (fun _ => lit 1) n).val : ℝ)| ≤ 288 := by
  intro co
  have n' : ‖(3 / 4 : ℂ)‖ = 3 / 4 := by
    rw [show (3 / 4 : ℂ) = ((3 / 4 : ℝ) : ℂ) by push_cast; rfl, Complex.norm_real]; norm_num
  have m : circleMargin (3 / 4) (3 / 4) = 1 / 16 := by unfold circleMargin; rw [n']; norm_num
  have a1 : co.a1.val = -3 / 2 := by decide +kernel
  have a2 : co.a2.val = 9 / 16 := by decide +kernel
  have := (C155_bounded (co := co) (x := fun _ => lit 1) (G := 1) (p := 3 / 4) (q := 3 / 4) (by unfold BiquadCoeffs.Fin; decide +kernel)
    ⟨by rw [a1]; push_cast; norm_num, by rw [a2]; push_cast; norm_num, by rw [n']; norm_num, by rw [n']; norm_num⟩ (by rw [m]; norm_num)
    (fun _ => lit1_fin) (by norm_num) (by norm_num) (fun _ => by unfold BiquadCoeffs.FeedsAtMost; decide +kernel) n).2
  rw [m] at this
  norm_num at this ⊢
  exact this

end Verif
