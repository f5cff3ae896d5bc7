import Verif.Props.Octave
import Verif.Props.DesignResponse
import Verif.Props.DesignRun

/-! # C179 in float arithmetic -/

namespace Verif

open F32 Butterworth

section Run
variable {k : ℝ} {G : ℚ} {co : ℕ → BiquadCoeffs F32} {x : ℕ → F32}

/-- The loss of the form outweighs the rounding. -/
theorem octaveLoss_ge (k0 : 1 / 90 ≤ k) (k1 : k ≤ 1) : (32 / 100 + k / 2) * (96 / (k * 2 ^ 24)) ≤ octaveLoss k / 4 := by
  have kp : 0 < k := by linarith
  unfold octaveLoss
  rw [← mul_div_assoc, div_div, div_le_div_iff₀ (by positivity) (by positivity)]
  have k2 : 1 / 8100 ≤ k ^ 2 := by nlinarith
  have k3 : k ^ 3 ≤ k ^ 2 := by nlinarith [sq_nonneg k]
  nlinarith

/-- One sample in floats. -/
theorem octave_step {f : Biquad F32} {y : F32} {T : ℚ} {R : ℝ} (k0 : 1 / 90 ≤ k) (k1 : k ≤ 1) (hc : f.coeffs.Fin)
    (hT : Tuned k f.coeffs.a1.val f.coeffs.a2.val) (hy : y.isFin = true) (G0 : 0 ≤ G) (hb : f.coeffs.FeedsAtMost y G)
    (hG : G + 21 / 2 ^ 150 ≤ T) (T1 : T ≤ 2 ^ 31) (hR : R = 20 * T / octaveLoss k)
    (f1 : f.z1.isFin = true) (f2 : f.z2.isFin = true) (h : ‖octModal k f.z1.val f.z2.val‖ ≤ R) :
    (f.process y).2.isFin = true ∧ |((f.process y).2.val : ℝ)| ≤ 810 * (1300 + 1 / k ^ 2) * T ∧
    (f.process y).1.z1.isFin = true ∧ (f.process y).1.z2.isFin = true ∧
    ‖octModal k (f.process y).1.z1.val (f.process y).1.z2.val‖ ≤ R := by
  have kp : 0 < k := by linarith
  have l0 := octaveLoss_pos kp
  have l1 := octaveLoss_lt kp
  obtain ⟨g1, g2⟩ := octModal_ge kp k1 f.z1.val f.z2.val
  obtain ⟨a1, a2⟩ := hT.bounds kp
  have a1' : |f.coeffs.a1.val| ≤ 2 := by exact_mod_cast a1
  have a2' : |f.coeffs.a2.val| ≤ 1 := by exact_mod_cast a2
  obtain ⟨S, hS⟩ : ∃ S, S = G + max |f.z1.val| |f.z2.val| := ⟨_, rfl⟩
  have η0 : (0:ℚ) < 21 / 2 ^ 150 := by positivity
  have T0 : (0:ℝ) ≤ T := by
    have : (0:ℚ) ≤ T := by linarith
    exact_mod_cast this
  have GT : (G:ℝ) + 21 / 2 ^ 150 ≤ T := by
    have := (Rat.cast_le (K := ℝ)).2 hG
    push_cast at this; exact this
  have R0 : 0 ≤ R := (norm_nonneg _).trans h
  have kd : 3 / k * R = 780 * (1300 + 1 / k ^ 2) * T := by rw [hR]; unfold octaveLoss; field_simp; ring
  have zR : ∀ z : ℚ, |(z:ℝ)| ≤ 3 / k * ‖octModal k f.z1.val f.z2.val‖ → |(z:ℝ)| ≤ 3 / k * R := fun z hz =>
    hz.trans (mul_le_mul_of_nonneg_left h (by positivity))
  have S1 : (S:ℝ) ≤ G + 3 / k * R := by
    rw [hS]; push_cast
    have := max_le (zR _ g1) (zR _ g2)
    linarith
  have ik : 1 / k ^ 2 ≤ 8100 := by
    rw [div_le_iff₀ (by positivity)]; nlinarith
  have ikT : 1 / k ^ 2 * T ≤ 8100 * T := mul_le_mul_of_nonneg_right ik T0
  have ikT0 : 0 ≤ 1 / k ^ 2 * (T:ℝ) := by positivity
  have T1' : (T:ℝ) ≤ 2 ^ 31 := by exact_mod_cast T1
  have S2 : S ≤ 2 ^ 90 := by
    have : (S:ℝ) ≤ 2 ^ 90 := by
      refine S1.trans ?_
      rw [kd]
      have e0 : (0:ℝ) < 21 / 2 ^ 150 := by positivity
      have e9 : (G:ℝ) + 780 * (1300 + 1 / k ^ 2) * T ≤ 8000000 * 2 ^ 31 := by
        rw [show 780 * (1300 + 1 / k ^ 2) * (T:ℝ) = 780 * 1300 * T + 780 * (1 / k ^ 2 * T) by ring]
        linarith
      exact e9.trans (by norm_num)
    exact_mod_cast this
  obtain ⟨b0, b1, b2⟩ := hb
  obtain ⟨o0, o1, o2, e0, e1, e2⟩ := process_error hc hy f1 f2 S2 a1' a2'
    (by rw [hS]; exact add_le_add b0 (le_max_left _ _)) (by rw [hS]; exact add_le_add b1 (le_max_right _ _))
    (by rw [hS]; exact b2.trans (by linarith [(abs_nonneg f.z1.val).trans (le_max_left |f.z1.val| |f.z2.val|)]))
  have e0' := (Rat.cast_le (K := ℝ)).2 e0
  have e1' := (Rat.cast_le (K := ℝ)).2 e1
  have e2' := (Rat.cast_le (K := ℝ)).2 e2
  have b0' := (Rat.cast_le (K := ℝ)).2 b0
  have b1' := (Rat.cast_le (K := ℝ)).2 b1
  have b2' := (Rat.cast_le (K := ℝ)).2 b2
  push_cast at e0' e1' e2' b0' b1' b2'
  have sh := tuned_shrinks kp hT f.z1.val f.z2.val
  generalize (f.process y).2.val = O at *
  generalize (f.process y).1.z1.val = Y1 at *
  generalize (f.process y).1.z2.val = Y2 at *
  generalize f.z1.val = z1 at *
  generalize f.z2.val = z2 at *
  have P0 : |(f.coeffs.a1.val : ℝ) * ((f.coeffs.b0.val : ℝ) * y.val)| ≤ 2 * G := by
    rw [abs_mul]; exact mul_le_mul a1 b0' (abs_nonneg _) (by norm_num)
  have P1 : |(f.coeffs.a2.val : ℝ) * ((f.coeffs.b0.val : ℝ) * y.val)| ≤ 1 * G := by
    rw [abs_mul]; exact mul_le_mul a2 b0' (abs_nonneg _) (by norm_num)
  rw [mul_add] at e1' e2'
  generalize (f.coeffs.a1.val : ℝ) * ((f.coeffs.b0.val : ℝ) * y.val) = p0 at *
  generalize (f.coeffs.a2.val : ℝ) * ((f.coeffs.b0.val : ℝ) * y.val) = p1 at *
  generalize (f.coeffs.b0.val : ℝ) * y.val = c0 at *
  generalize (f.coeffs.b1.val : ℝ) * y.val = c1 at *
  generalize (f.coeffs.b2.val : ℝ) * y.val = c2 at *
  have Z1 := zR _ g1
  have G0' : (0:ℝ) ≤ G := by exact_mod_cast G0
  refine ⟨o0, ?_, o1, o2, ?_⟩
  · obtain ⟨q1, q2⟩ := abs_le.1 e0'
    obtain ⟨q3, q4⟩ := abs_le.1 b0'
    obtain ⟨q5, q6⟩ := abs_le.1 Z1
    rw [kd] at q5 q6 S1
    rw [show 780 * (1300 + 1 / k ^ 2) * (T:ℝ) = 780 * 1300 * T + 780 * (1 / k ^ 2 * T) by ring] at q5 q6 S1
    rw [show 810 * (1300 + 1 / k ^ 2) * (T:ℝ) = 810 * 1300 * T + 810 * (1 / k ^ 2 * T) by ring]
    generalize 1 / k ^ 2 * (T:ℝ) = W at *
    have s3 : 3 * (S:ℝ) / 2 ^ 24 ≤ S / 2 ^ 20 + 0 := by
      have : (0:ℝ) ≤ S := by
        have : (0:ℚ) ≤ S := by rw [hS]; exact add_nonneg G0 ((abs_nonneg _).trans (le_max_left _ _))
        exact_mod_cast this
      norm_num; linarith
    have η3 : (3:ℝ) / 2 ^ 150 ≤ 21 / 2 ^ 150 := by norm_num
    generalize (3:ℝ) / 2 ^ 150 = ε at *
    generalize (21:ℝ) / 2 ^ 150 = ε' at *
    norm_num at s3
    rw [abs_le]; constructor <;> linarith
  · have e := octModal_add k (z2 - (f.coeffs.a1.val : ℝ) * z1) (-((f.coeffs.a2.val : ℝ) * z1)) (Y1 - (z2 - (f.coeffs.a1.val : ℝ) * z1))
      (Y2 - -((f.coeffs.a2.val : ℝ) * z1))
    rw [add_sub_cancel, add_sub_cancel] at e
    rw [e]
    refine (norm_add_le _ _).trans ?_
    have d1 : |(Y1:ℝ) - (z2 - (f.coeffs.a1.val : ℝ) * z1)| ≤ 3 * G + 13 / 2 ^ 150 + 21 * S / 2 ^ 24 := by
      obtain ⟨q1, q2⟩ := abs_le.1 e1'
      obtain ⟨q3, q4⟩ := abs_le.1 b1'
      obtain ⟨q5, q6⟩ := abs_le.1 P0
      rw [abs_le]; constructor <;> linarith
    have d2 : |(Y2:ℝ) - -((f.coeffs.a2.val : ℝ) * z1)| ≤ 2 * G + 8 / 2 ^ 150 + 11 * S / 2 ^ 24 := by
      obtain ⟨q1, q2⟩ := abs_le.1 e2'
      obtain ⟨q3, q4⟩ := abs_le.1 b2'
      obtain ⟨q5, q6⟩ := abs_le.1 P1
      rw [abs_le]; constructor <;> linarith
    have d3 : |(Y1:ℝ) - (z2 - (f.coeffs.a1.val : ℝ) * z1)| + |(Y2:ℝ) - -((f.coeffs.a2.val : ℝ) * z1)| ≤ 51 / 10 * T + 96 / (k * 2 ^ 24) * R := by
      have s : 32 * (S:ℝ) / 2 ^ 24 ≤ 32 * (G + 3 / k * R) / 2 ^ 24 := by gcongr
      have s' : 32 * ((G:ℝ) + 3 / k * R) / 2 ^ 24 = G / 2 ^ 19 + 96 / (k * 2 ^ 24) * R := by field_simp; ring
      have s'' : (G:ℝ) / 2 ^ 19 ≤ G / 10 := by gcongr; norm_num
      have s3 : 32 * (S:ℝ) / 2 ^ 24 = 21 * S / 2 ^ 24 + 11 * S / 2 ^ 24 := by ring
      have s4 : (13:ℝ) / 2 ^ 150 + 8 / 2 ^ 150 = 21 / 2 ^ 150 := by ring
      have s5 : (0:ℝ) < 21 / 2 ^ 150 := by positivity
      linarith
    have g := (octModal_le kp _ _).trans (mul_le_mul_of_nonneg_left d3 (by positivity))
    have l := mul_le_mul_of_nonneg_right (octaveLoss_ge k0 k1) R0
    have h' := mul_le_mul_of_nonneg_left h (show 0 ≤ 1 - octaveLoss k / 2 by linarith)
    have lR : octaveLoss k * R = 20 * T := by rw [hR]; field_simp
    have kT : (32 / 100 + k / 2) * (51 / 10 * (T:ℝ)) ≤ 82 / 100 * (51 / 10 * T) := mul_le_mul_of_nonneg_right (by linarith) (by positivity)
    generalize ‖octModal k ((Y1:ℝ) - (z2 - (f.coeffs.a1.val : ℝ) * z1)) ((Y2:ℝ) - -((f.coeffs.a2.val : ℝ) * z1))‖ = N at *
    generalize ‖octModal k ((z2:ℝ) - (f.coeffs.a1.val : ℝ) * z1) (-((f.coeffs.a2.val : ℝ) * z1))‖ = N' at *
    generalize 96 / (k * 2 ^ 24) = c at *
    nlinarith

/-- C179 in floats: settings replaced before every sample at will, within the range of `Tuned`. -/
theorem C179_float (k0 : 1 / 90 ≤ k) (k1 : k ≤ 1) (hc : ∀ n, (co n).Fin ∧ Tuned k (co n).a1.val (co n).a2.val) (hx : ∀ n, (x n).isFin = true)
    (G0 : 0 ≤ G) (G1 : G ≤ 2 ^ 30) (hb : ∀ n, (co n).FeedsAtMost (x n) G) (n : ℕ) :
    ((Biquad.new (co 0)).outAtVar (fun n => (co n, x n)) n).isFin = true ∧
    |(((Biquad.new (co 0)).outAtVar (fun n => (co n, x n)) n).val : ℝ)| ≤ 810 * (1300 + 1 / k ^ 2) * (G + 1 / 2 ^ 140) := by
  have kp : 0 < k := by linarith
  obtain ⟨T, hT⟩ : ∃ T : ℚ, T = G + 1 / 2 ^ 140 := ⟨_, rfl⟩
  have gT : G + 21 / 2 ^ 150 ≤ T := by rw [hT]; norm_num
  have T1 : T ≤ 2 ^ 31 := by rw [hT]; norm_num at G1 ⊢; linarith
  have inv : ∀ k', ((Biquad.new (co 0)).stateAtVar (fun n => (co n, x n)) k').z1.isFin = true ∧
      ((Biquad.new (co 0)).stateAtVar (fun n => (co n, x n)) k').z2.isFin = true ∧
      ‖octModal k ((Biquad.new (co 0)).stateAtVar (fun n => (co n, x n)) k').z1.val
        ((Biquad.new (co 0)).stateAtVar (fun n => (co n, x n)) k').z2.val‖ ≤ 20 * T / octaveLoss k := by
    intro j
    induction j with
    | zero =>
      refine ⟨lit0_fin, lit0_fin, ?_⟩
      show ‖octModal k ((lit 0 : F32).val : ℚ) ((lit 0 : F32).val : ℚ)‖ ≤ _
      rw [lit0_val]
      have : octModal k ((0:ℚ):ℝ) ((0:ℚ):ℝ) = 0 := by unfold octModal; apply Complex.ext <;> simp
      rw [this, norm_zero]
      have : (0:ℝ) ≤ T := by
        have : (0:ℚ) ≤ T := by rw [hT]; positivity
        exact_mod_cast this
      have := octaveLoss_pos kp
      positivity
    | succ j ih =>
      rw [Biquad.stateAtVar]
      exact (octave_step (f := ⟨_, _, co j⟩) k0 k1 (hc j).1 (hc j).2 (hx j) G0 (hb j) gT T1 rfl ih.1 ih.2.1 ih.2.2).2.2
  obtain ⟨f1, f2, h⟩ := inv n
  have := octave_step (f := ⟨_, _, co n⟩) k0 k1 (hc n).1 (hc n).2 (hx n) G0 (hb n) gT T1 rfl f1 f2 h
  rw [Biquad.outAtVar]
  refine ⟨this.1, this.2.1.trans (le_of_eq ?_)⟩
  rw [hT]; push_cast; ring

end Run

/-! ## The designs -/

/-- Rounded feedback coefficients are those of a slightly different cutoff and quality. -/
theorem tuned_near {k K K2 KQ a1 a2 : ℝ} (kp : 0 < k) (K0 : 1 / 91 ≤ K) (K1 : K ≤ 11 / 10) (hk : k ≤ 998 / 1000 * K) (hk' : K ≤ 2494 / 1000 * k)
    (l2 : 999999 / 1000000 * K ^ 2 ≤ K2) (u2 : K2 ≤ 1000001 / 1000000 * K ^ 2) (lq : 999999 / 1000000 * K ≤ KQ) (uq : KQ ≤ 8000008 / 1000000 * K)
    (h1 : |a1 - 2 * (K2 - 1) / (1 + KQ + K2)| ≤ 14 / 2 ^ 24) (h2 : |a2 - (1 - KQ + K2) / (1 + KQ + K2)| ≤ 7 / 2 ^ 24) : Tuned k a1 a2 := by
  have Kp : 0 < K := by linarith
  have KK : 1 / 91 * K ≤ K ^ 2 := by nlinarith
  have KK' : K ^ 2 ≤ 11 / 10 * K := by nlinarith
  have p2 : 0 < K2 := by linarith
  have pq : 0 < KQ := by linarith
  obtain ⟨D, hD⟩ : ∃ D, D = 1 + KQ + K2 := ⟨_, rfl⟩
  have D0 : 0 < D := by linarith
  have D1 : D ≤ 12 := by linarith
  rw [← hD] at h1 h2
  obtain ⟨i, hi⟩ : ∃ i, i = 1 / D := ⟨_, rfl⟩
  have i0 : 0 < i := by rw [hi]; positivity
  have iD : i * D = 1 := by rw [hi]; field_simp
  have A1 : 2 * (K2 - 1) / D = 2 * (K2 * i) - 2 * i := by rw [hi]; field_simp
  have A2 : (1 - KQ + K2) / D = i - KQ * i + K2 * i := by rw [hi]; field_simp
  have S : i + KQ * i + K2 * i = 1 := by rw [← iD, hD]; ring
  rw [A1] at h1
  rw [A2] at h2
  obtain ⟨h1a, h1b⟩ := abs_le.1 h1
  obtain ⟨h2a, h2b⟩ := abs_le.1 h2
  have i1 : 1 / 12 ≤ i := by nlinarith
  have c2 : 21 / 2 ^ 24 ≤ 12 / 1000 * (K2 * i) := by
    have : D ≤ 9500 * K2 := by rw [hD]; linarith
    have := mul_le_mul_of_nonneg_right this i0.le
    rw [mul_comm D, iD] at this
    norm_num; linarith
  have cq : 21 / 2 ^ 24 ≤ 1 / 2000 * (KQ * i) := by
    have : D ≤ 300 * KQ := by rw [hD]; linarith
    have := mul_le_mul_of_nonneg_right this i0.le
    rw [mul_comm D, iD] at this
    norm_num; linarith
  obtain ⟨P, hP⟩ : ∃ P, P = 1 + a1 + a2 := ⟨_, rfl⟩
  obtain ⟨M, hM⟩ : ∃ M, M = 1 - a1 + a2 := ⟨_, rfl⟩
  obtain ⟨Q, hQ⟩ : ∃ Q, Q = 1 - a2 := ⟨_, rfl⟩
  have m1 : 39999 / 10000 * i ≤ M := by norm_num at *; linarith
  have m2 : M ≤ 40001 / 10000 * i := by norm_num at *; linarith
  have e1 : 3988 / 1000 * (K2 * i) ≤ P := by norm_num at *; linarith
  have e2 : P ≤ 4012 / 1000 * (K2 * i) := by norm_num at *; linarith
  have q1 : 1999 / 1000 * (KQ * i) ≤ Q := by norm_num at *; linarith
  have q2 : Q ≤ 2001 / 1000 * (KQ * i) := by norm_num at *; linarith
  have Mp : 0 < M := by linarith
  have Ki : 0 < K2 * i := by positivity
  have Pp : 0 < P := by linarith
  have x1 : (998 / 1000 * K) ^ 2 ≤ P / M := by
    rw [le_div_iff₀ Mp]
    have z : (998 / 1000 * K) ^ 2 * M ≤ (998 / 1000 * K) ^ 2 * (40001 / 10000 * i) := mul_le_mul_of_nonneg_left m2 (by positivity)
    have v := mul_le_mul_of_nonneg_right l2 i0.le
    have w : 0 < K ^ 2 * i := by positivity
    rw [show (998 / 1000 * K) ^ 2 * (40001 / 10000 * i) = (998 / 1000) ^ 2 * (40001 / 10000) * (K ^ 2 * i) by ring] at z
    rw [mul_assoc] at v
    norm_num at z ⊢; linarith
  have x2 : P / M ≤ (1002 / 1000 * K) ^ 2 := by
    rw [div_le_iff₀ Mp]
    have z : (1002 / 1000 * K) ^ 2 * (39999 / 10000 * i) ≤ (1002 / 1000 * K) ^ 2 * M := mul_le_mul_of_nonneg_left m1 (by positivity)
    have v := mul_le_mul_of_nonneg_right u2 i0.le
    have w : 0 < K ^ 2 * i := by positivity
    rw [show (1002 / 1000 * K) ^ 2 * (39999 / 10000 * i) = (1002 / 1000) ^ 2 * (39999 / 10000) * (K ^ 2 * i) by ring] at z
    rw [mul_assoc] at v
    norm_num at z ⊢; linarith
  have y1 : 999 / 1000 * K ≤ 2 * Q / M := by
    rw [le_div_iff₀ Mp]
    have z := mul_le_mul_of_nonneg_left m2 Kp.le
    have v := mul_le_mul_of_nonneg_right lq i0.le
    have w := mul_pos Kp i0
    rw [mul_assoc] at v
    rw [show K * (40001 / 10000 * i) = 40001 / 10000 * (K * i) by ring] at z
    linarith
  have y2 : 2 * Q / M ≤ 801 / 100 * K := by
    rw [div_le_iff₀ Mp]
    have z := mul_le_mul_of_nonneg_left m1 Kp.le
    have v := mul_le_mul_of_nonneg_right uq i0.le
    have w := mul_pos Kp i0
    rw [mul_assoc] at v
    rw [show K * (39999 / 10000 * i) = 39999 / 10000 * (K * i) by ring] at z
    linarith
  have s0 : 0 ≤ P / M := by positivity
  have s1 : 998 / 1000 * K ≤ √(P / M) := Real.le_sqrt_of_sq_le x1
  have s2 : √(P / M) ≤ 1002 / 1000 * K := Real.sqrt_le_iff.2 ⟨by positivity, x2⟩
  have ek : k * (√(P / M) / k) = √(P / M) := by field_simp
  have er : k * (2 * Q / M / k) = 2 * Q / M := by field_simp
  refine ⟨√(P / M) / k, 2 * Q / M / k, ⟨?_, ?_, ?_, ?_⟩, ?_, ?_⟩
  · rw [one_le_div kp]; linarith
  · rw [div_le_iff₀ kp]; linarith
  · rw [← mul_div_assoc, div_le_div_iff_of_pos_right kp]; linarith
  · rw [← mul_div_assoc, div_le_div_iff_of_pos_right kp]; linarith
  · rw [ek, er, Real.sq_sqrt s0]; field_simp; rw [hP, hM, hQ]; ring
  · rw [ek, er, Real.sq_sqrt s0]; field_simp; rw [hP, hM, hQ]; ring

theorem tanPoly_scale {l x : ℝ} (l1 : 1 ≤ l) (x0 : 0 ≤ x) : tanPoly (l * x) ≤ l ^ 15 * tanPoly x := by
  have : ∀ n, n ≤ 15 → (l * x) ^ n ≤ l ^ 15 * x ^ n := fun n hn => by
    rw [mul_pow]; exact mul_le_mul_of_nonneg_right (pow_le_pow_right₀ l1 hn) (by positivity)
  have a1 := this 1 (by norm_num)
  have a3 := this 3 (by norm_num)
  have a5 := this 5 (by norm_num)
  have a7 := this 7 (by norm_num)
  have a9 := this 9 (by norm_num)
  have a11 := this 11 (by norm_num)
  have a13 := this 13 (by norm_num)
  have a15 := this 15 (by norm_num)
  rw [pow_one, pow_one] at a1
  unfold tanPoly
  generalize l ^ 15 = L at *
  linarith

theorem tanPoly_mono' {x y : ℝ} (x0 : 0 ≤ x) (h : x ≤ y) : tanPoly x ≤ tanPoly y := by
  unfold tanPoly; gcongr

theorem tanPoly_ge' {x : ℝ} (x0 : 0 ≤ x) : x ≤ tanPoly x := by
  unfold tanPoly
  have : 0 ≤ 1/3 * x^3 + 2/15 * x^5 + 17/315 * x^7 + 62/2835 * x^9 + 1382/155925 * x^11 + 21844/6081075 * x^13 + 929569/638512875 * x^15 := by
    positivity
  linarith

/-- The warped cutoff the code computes, over the polynomial at the low end of the octave. -/
theorem warpF_octave {powi : F32 → ℕ → F32} (hp : PowiNear powi) {fc sr : F32} (s0 : 1 ≤ sr.val) (s1 : sr.val ≤ 2 ^ 30) {r : ℚ}
    (r0 : 1 / 275 ≤ r) (r1 : r ≤ 1 / 8) (h : r ≤ fc.val / sr.val) (h' : fc.val / sr.val ≤ 2 * r) :
    999 / 1000 * tanPoly (31415926 / 10000000 * (r:ℝ)) ≤ (warpF powi fc sr).val ∧
    ((warpF powi fc sr).val : ℝ) ≤ 243 / 100 * tanPoly (31415926 / 10000000 * (r:ℝ)) := by
  have sp : 0 < sr.val := by linarith
  have fp : 0 < fc.val / sr.val := by linarith
  have fp' : 0 ≤ fc.val := by
    have := mul_nonneg fp.le sp.le
    rwa [div_mul_cancel₀ _ sp.ne'] at this
  have fB : fc.val ≤ 2 ^ 30 := by
    have : fc.val / sr.val ≤ 1 / 4 := by linarith
    rw [div_le_iff₀ sp] at this
    norm_num at s1 ⊢; linarith
  norm_num at fB s1
  have ff : fc.isFin = true := fin_of_val (by rw [abs_of_nonneg fp']; norm_num; linarith)
  have sf : sr.isFin = true := fin_of_val (by rw [abs_of_pos sp]; norm_num; linarith)
  have pf : (lit FMath.piQ : F32).isFin = true := by decide +kernel
  have pv : (lit FMath.piQ : F32).val = 13176795 / 4194304 := by decide +kernel
  obtain ⟨m1, m2⟩ := mul_near (B := 13176795 / 4194304 * fc.val) pf ff (by rw [pv, abs_of_nonneg (by positivity)]) (by norm_num; linarith)
  rw [pv] at m2
  obtain ⟨m2a, m2b⟩ := abs_le.1 m2
  have t : (1:ℚ) / 2 ^ 150 / sr.val ≤ 1 / 2 ^ 150 := div_le_self (by norm_num) s0
  have u1 : (lit FMath.piQ * fc).val / sr.val ≤ 13176795 / 4194304 * (1 + 1 / 2 ^ 24) * (fc.val / sr.val) + 1 / 2 ^ 150 / sr.val := by
    rw [← mul_div_assoc, ← add_div, div_le_div_iff_of_pos_right sp]; linarith
  have u2 : 13176795 / 4194304 * (1 - 1 / 2 ^ 24) * (fc.val / sr.val) - 1 / 2 ^ 150 / sr.val ≤ (lit FMath.piQ * fc).val / sr.val := by
    rw [← mul_div_assoc, ← sub_div, div_le_div_iff_of_pos_right sp]; linarith
  have t0 : (0:ℚ) ≤ 1 / 2 ^ 150 / sr.val := by positivity
  norm_num at u1 u2 t t0
  have d3 : |(lit FMath.piQ * fc / sr).val - (lit FMath.piQ * fc).val / sr.val| ≤ 1 / 2 ^ 150 + 22 / 7 * (fc.val / sr.val) / 2 ^ 24 := by
    exact (div_near (B := 22 / 7 * (fc.val / sr.val)) m1 sf sp.ne' (by rw [abs_le]; constructor <;> linarith) (by norm_num; linarith)).2
  obtain ⟨d3a, d3b⟩ := abs_le.1 d3
  have x0 : 31415926 / 10000000 * r ≤ 100001 / 100000 * (lit FMath.piQ * fc / sr).val := by norm_num at d3a d3b ⊢; linarith
  have x1 : (lit FMath.piQ * fc / sr).val ≤ 100001 / 100000 * (2 * (31415926 / 10000000 * r)) := by norm_num at d3a d3b ⊢; linarith
  have x00 : 0 ≤ (lit FMath.piQ * fc / sr).val := by linarith
  have x11 : (lit FMath.piQ * fc / sr).val ≤ 1 := by linarith
  obtain ⟨-, e⟩ := fastTan_near hp x00 x11
  change |(warpF powi fc sr).val - _| ≤ _ at e
  generalize (lit FMath.piQ * fc / sr).val = x at *
  generalize (warpF powi fc sr).val = K at *
  replace e := (Rat.cast_le (K := ℝ)).2 (e.trans (show x / 2 ^ 18 + 1 / 2 ^ 130 ≤ x / 2 ^ 17 by norm_num at x0 ⊢; linarith))
  have hq : ((tanQ x : ℚ) : ℝ) = tanPoly x := by unfold tanQ tanPoly; push_cast; rfl
  rw [Rat.cast_abs, Rat.cast_sub, hq] at e
  replace x0 := (Rat.cast_le (K := ℝ)).2 x0
  replace x1 := (Rat.cast_le (K := ℝ)).2 x1
  have y0 : (0:ℝ) ≤ x := by exact_mod_cast x00
  have r0' : (1:ℝ) / 275 ≤ r := by
    have := (Rat.cast_le (K := ℝ)).2 r0
    push_cast at this; exact this
  have r1' : (r:ℝ) ≤ 1 / 8 := by
    have := (Rat.cast_le (K := ℝ)).2 r1
    push_cast at this; exact this
  push_cast at e x0 x1
  have z0 : (0:ℝ) ≤ 31415926 / 10000000 * (r:ℝ) := by positivity
  have z1 : 31415926 / 10000000 * (r:ℝ) ≤ 393 / 1000 := by linarith
  generalize 31415926 / 10000000 * (r:ℝ) = z at *
  obtain ⟨e1, e2⟩ := abs_le.1 e
  have g := tanPoly_ge' y0
  have b1 := (tanPoly_mono' z0 x0).trans (tanPoly_scale (by norm_num) y0)
  have b2 := (tanPoly_mono' y0 x1).trans (tanPoly_scale (by norm_num) (by positivity))
  have b3 := (tanPoly_double z0 z1 (y := 2 * z) (by linarith) le_rfl).2
  have z2 := tanPoly_ge' z0
  have L : ((100001:ℝ) / 100000) ^ 15 ≤ 10002 / 10000 := by norm_num
  have b1' := b1.trans (mul_le_mul_of_nonneg_right L (y0.trans g))
  have b2' := b2.trans (mul_le_mul_of_nonneg_right L ((show (0:ℝ) ≤ 2 * z by positivity).trans (tanPoly_ge' (by positivity))))
  norm_num at e1 e2
  constructor <;> linarith

/-- The settings in floats: cutoff anywhere from `f` to `2 f`, quality anywhere from 1/8 to 1, any of the six designs, gains up to 64. -/
def MovedF (powi : F32 → ℕ → F32) (sqrt : F32 → F32) (f sr : F32) (co : BiquadCoeffs F32) : Prop := ∃ fc q gain, f.val ≤ fc.val ∧
  fc.val ≤ 2 * f.val ∧ 1 / 8 ≤ q.val ∧ q.val ≤ 1 ∧ BoostGain gain ∧
  co ∈ [lowpass powi fc q sr, highpass powi fc q sr, allpass powi fc q sr, notch powi fc q sr, bellBoost powi fc q gain sr,
    lowShelfBoost powi sqrt fc q gain sr]

theorem MovedF.tuned {powi : F32 → ℕ → F32} (hp : PowiNear powi) {sqrt : F32 → F32} (hs : SqrtWithin (1 / 4) sqrt) {f sr : F32}
    (s0 : 1 ≤ sr.val) (s1 : sr.val ≤ 2 ^ 30) (f0 : sr.val / 275 ≤ f.val) (f1 : f.val ≤ sr.val / 8) {co : BiquadCoeffs F32}
    (h : MovedF powi sqrt f sr co) :
    Safe co ∧ Tuned (99 / 100 * tanPoly (31415926 / 10000000 * ((f.val / sr.val : ℚ) : ℝ))) co.a1.val co.a2.val := by
  obtain ⟨fc, q, gain, h1, h2, q0, q1, hg, hco⟩ := h
  have sp : 0 < sr.val := by linarith
  have r0 : 1 / 275 ≤ f.val / sr.val := by rw [le_div_iff₀ sp]; linarith
  have r1 : f.val / sr.val ≤ 1 / 8 := by rw [div_le_iff₀ sp]; linarith
  have c1 : f.val / sr.val ≤ fc.val / sr.val := by gcongr
  have c2 : fc.val / sr.val ≤ 2 * (f.val / sr.val) := by rw [← mul_div_assoc]; gcongr
  refine ⟨safe_boost hp hs s0 s1 (by linarith) (by linarith) (by linarith) (by linarith) hg hco, ?_⟩
  obtain ⟨k0, k1⟩ := warpF_octave hp s0 s1 r0 r1 c1 c2
  have z0 : (31415926:ℝ) / 10000000 * (1 / 275) ≤ 31415926 / 10000000 * ((f.val / sr.val : ℚ) : ℝ) := by
    have := (Rat.cast_le (K := ℝ)).2 r0
    push_cast at this ⊢; linarith
  have z1 : 31415926 / 10000000 * ((f.val / sr.val : ℚ) : ℝ) ≤ 393 / 1000 := by
    have := (Rat.cast_le (K := ℝ)).2 r1
    push_cast at this ⊢; linarith
  have T0 := tanPoly_ge' (x := 31415926 / 10000000 * ((f.val / sr.val : ℚ) : ℝ)) (by linarith)
  have T1 := (tanPoly_mono' (by linarith) z1).trans (show tanPoly (393 / 1000) ≤ 415 / 1000 by unfold tanPoly; norm_num)
  generalize tanPoly (31415926 / 10000000 * ((f.val / sr.val : ℚ) : ℝ)) = T at *
  simp only [lowpass, highpass, allpass, notch, bellBoost, lowShelfBoost, setupCoeffs, List.mem_cons, List.not_mem_nil, or_false] at hco
  change co = lowpassOf (warpF powi fc sr * warpF powi fc sr) (warpF powi fc sr / q) ∨
    co = highpassOf (warpF powi fc sr * warpF powi fc sr) (warpF powi fc sr / q) ∨
    co = allpassOf (warpF powi fc sr * warpF powi fc sr) (warpF powi fc sr / q) ∨
    co = notchOf (warpF powi fc sr * warpF powi fc sr) (warpF powi fc sr / q) ∨
    co = bellBoostOf gain (warpF powi fc sr * warpF powi fc sr) (warpF powi fc sr / q) ∨
    co = lowShelfBoostOf sqrt gain (warpF powi fc sr * warpF powi fc sr) (warpF powi fc sr / q) at hco
  generalize warpF powi fc sr = k at *
  have K0 : (1:ℝ) / 91 ≤ k.val := by linarith
  have K1 : (k.val : ℝ) ≤ 11 / 10 := by linarith
  have K0' : 1 / 91 ≤ k.val := by
    rw [← Rat.cast_le (K := ℝ)]; push_cast; exact K0
  have K1' : k.val ≤ 11 / 10 := by
    rw [← Rat.cast_le (K := ℝ)]; push_cast; exact K1
  obtain ⟨g1, g2, -⟩ := setup_near (k := k) (q := q) (by norm_num; linarith) (by linarith) (by linarith) (by linarith)
  obtain ⟨w1, w2⟩ := setup_tight (k := k) (q := q) (by norm_num; linarith) (by linarith) (by linarith) (by linarith)
  have kp : 0 < k.val := by linarith
  have qp : 0 < q.val := by linarith
  have b1 : k.val ≤ k.val / q.val := by rw [le_div_iff₀ qp]; nlinarith
  have b2 : k.val / q.val ≤ 8 * k.val := by rw [div_le_iff₀ qp]; nlinarith
  have b3 : 0 < k.val ^ 2 := by positivity
  have b4 : k.val ^ 2 ≤ 11 / 10 * k.val := by nlinarith
  obtain ⟨w1a, w1b⟩ := abs_le.1 w1
  obtain ⟨w2a, w2b⟩ := abs_le.1 w2
  have v1 : 999999 / 1000000 * k.val ^ 2 ≤ (k * k).val := by norm_num at w1a ⊢; linarith
  have v2 : (k * k).val ≤ 1000001 / 1000000 * k.val ^ 2 := by norm_num at w1b ⊢; linarith
  have v3 : 999999 / 1000000 * k.val ≤ (k / q).val := by norm_num at w2a ⊢; linarith
  have v4 : (k / q).val ≤ 8000008 / 1000000 * k.val := by norm_num at w2b ⊢; linarith
  generalize k * k = k2 at *
  generalize k / q = kq at *
  obtain ⟨-, n1, n1', n2⟩ := design_near g1 g2 (by linarith) (by linarith) (by norm_num; linarith)
  have key : ∀ {a1 a2 : ℚ}, |a1 - 2 * (k2.val - 1) / (1 + kq.val + k2.val)| ≤ 14 / 2 ^ 24 →
      |a2 - (1 - kq.val + k2.val) / (1 + kq.val + k2.val)| ≤ 7 / 2 ^ 24 → Tuned (99 / 100 * T) a1 a2 := by
    intro a1 a2 e1 e2
    replace v1 := (Rat.cast_le (K := ℝ)).2 v1
    replace v2 := (Rat.cast_le (K := ℝ)).2 v2
    replace v3 := (Rat.cast_le (K := ℝ)).2 v3
    replace v4 := (Rat.cast_le (K := ℝ)).2 v4
    replace e1 := (Rat.cast_le (K := ℝ)).2 e1
    replace e2 := (Rat.cast_le (K := ℝ)).2 e2
    push_cast at v1 v2 v3 v4 e1 e2
    exact tuned_near (by linarith) K0 K1 (by linarith) (by linarith) v1 v2 v3 v4 e1 e2
  rcases hco with rfl | rfl | rfl | rfl | rfl | rfl
  · exact key n1.2 n2.2
  all_goals exact key n1'.2 n2.2

/-- C179 in floats, for the designs: cutoff, quality, gain and kind changed before every sample, with the coefficients the code computes. -/
theorem C179_float_designs {powi : F32 → ℕ → F32} (hp : PowiNear powi) {sqrt : F32 → F32} (hs : SqrtWithin (1 / 4) sqrt) {f sr : F32}
    (s0 : 1 ≤ sr.val) (s1 : sr.val ≤ 2 ^ 30) (f0 : sr.val / 275 ≤ f.val) (f1 : 2 * f.val ≤ sr.val / 4) {co : ℕ → BiquadCoeffs F32}
    (hco : ∀ n, MovedF powi sqrt f sr (co n)) {x : ℕ → F32} {m : ℚ} (m0 : 1 / 2 ^ 120 ≤ m) (m1 : m ≤ 2 ^ 22)
    (hx : ∀ n, (x n).isFin = true ∧ |(x n).val| ≤ m) (n : ℕ) :
    ((Biquad.new (co 0)).outAtVar (fun n => (co n, x n)) n).isFin = true ∧
    |((Biquad.new (co 0)).outAtVar (fun n => (co n, x n)) n).val| ≤ 2 ^ 31 * m := by
  have T := fun n => (hco n).tuned hp hs s0 s1 f0 (by linarith)
  have sp : 0 < sr.val := by linarith
  have r0 : 1 / 275 ≤ f.val / sr.val := by rw [le_div_iff₀ sp]; linarith
  have r1 : f.val / sr.val ≤ 1 / 8 := by rw [div_le_iff₀ sp]; linarith
  have z0 : (31415926:ℝ) / 10000000 * (1 / 275) ≤ 31415926 / 10000000 * ((f.val / sr.val : ℚ) : ℝ) := by
    have := (Rat.cast_le (K := ℝ)).2 r0
    push_cast at this ⊢; linarith
  have z1 : 31415926 / 10000000 * ((f.val / sr.val : ℚ) : ℝ) ≤ 393 / 1000 := by
    have := (Rat.cast_le (K := ℝ)).2 r1
    push_cast at this ⊢; linarith
  have T0 := tanPoly_ge' (x := 31415926 / 10000000 * ((f.val / sr.val : ℚ) : ℝ)) (by linarith)
  have T1 := (tanPoly_mono' (by linarith) z1).trans (show tanPoly (393 / 1000) ≤ 415 / 1000 by unfold tanPoly; norm_num)
  generalize tanPoly (31415926 / 10000000 * ((f.val / sr.val : ℚ) : ℝ)) = t at *
  have hG : ∀ {b y : ℚ}, |b| ≤ 256 → |y| ≤ m → |b * y| ≤ 256 * m := by
    intro b y hb hy
    rw [abs_mul]; exact mul_le_mul hb hy (abs_nonneg _) (by norm_num)
  have mp : 0 < m := lt_of_lt_of_le (by norm_num) m0
  obtain ⟨c1, c2⟩ := C179_float (k := 99 / 100 * t) (G := 256 * m) (by linarith) (by linarith) (fun n => ⟨(T n).1.fin, (T n).2⟩) (fun n => (hx n).1)
    (by positivity) (by norm_num at m1 ⊢; linarith) (fun n => ⟨hG (T n).1.b0 (hx n).2, hG (T n).1.b1 (hx n).2, hG (T n).1.b2 (hx n).2⟩) n
  refine ⟨c1, ?_⟩
  rw [← Rat.cast_le (K := ℝ)]
  push_cast
  refine c2.trans ?_
  push_cast
  have ik : 1 / (99 / 100 * t) ^ 2 ≤ 8100 := by
    have : (1:ℝ) / 90 ≤ 99 / 100 * t := by linarith
    rw [div_le_iff₀ (by positivity)]; nlinarith
  have m0' : (1:ℝ) / 2 ^ 120 ≤ m := by
    have := (Rat.cast_le (K := ℝ)).2 m0
    push_cast at this; exact this
  have q : 256 * (m:ℝ) + 1 / 2 ^ 140 ≤ 257 * m := by norm_num at m0' ⊢; linarith
  have mp' : (0:ℝ) < m := by exact_mod_cast mp
  calc 810 * (1300 + 1 / (99 / 100 * t) ^ 2) * (256 * (m:ℝ) + 1 / 2 ^ 140) ≤ 810 * (1300 + 8100) * (257 * m) := by gcongr
    _ ≤ 2 ^ 31 * m := by norm_num; linarith

/-- A cutoff jumping between 1 kHz and 1.9 kHz at every sample, the filter turning from a low-pass into a high-pass with every jump. -/
example (n : ℕ) : MovedF powiMul mmSqrt (lit 1000) (lit 48000)
    (if n % 2 = 0 then lowpass powiMul (lit 1000) (lit 1) (lit 48000) else highpass powiMul (lit 1900) (lit (1 / 4)) (lit 48000)) := by
  split
  · refine ⟨lit 1000, lit 1, lit 1, ?_, ?_, ?_, ?_, ⟨?_, ?_, ?_⟩, List.mem_cons_self ..⟩ <;> decide +kernel
  · refine ⟨lit 1900, lit (1 / 4), lit 1, ?_, ?_, ?_, ?_, ⟨?_, ?_, ?_⟩, List.mem_cons_of_mem _ (List.mem_cons_self ..)⟩ <;> decide +kernel

example : (lit 48000 : F32).val / 275 ≤ (lit 1000 : F32).val ∧ 2 * (lit 1000 : F32).val ≤ (lit 48000 : F32).val / 4 := by decide +kernel

end Verif
