import Verif.F32.Scale
import Verif.Spec.Filter
import Verif.Props.DesignGain
import Verif.Props.PeriodicInput

/-! # C195: low-pass filters with very low cutoffs

The denominator at 0 Hz, `1 + a1 + a2`, should be about `4 (pi fc / sr)^2`, but rounded feedback coefficients make it a multiple of 2^-24.
Below a 40000th of the sample rate the design cannot work. Props/LowCutoffRun.lean follows one such filter in floats. -/

namespace Verif
open F32 Butterworth

/-- From a half up, floats are whole multiples of `2^-24`. -/
theorem val_grid {x : F32} (h : 1 / 2 ≤ |x.val|) : ∃ m : ℤ, x.val = m / 2 ^ 24 := by
  rw [abs_val] at h
  have hm : 126 * 2 ^ 23 ≤ x.mag := by
    have e : (1:ℚ) / 2 = magVal (126 * 2 ^ 23) := by decide +kernel
    rw [e] at h; exact magVal_le.1 h
  obtain ⟨k, hk⟩ : ∃ k, x.mag / 2 ^ 23 - 1 = 125 + k := ⟨x.mag / 2 ^ 23 - 1 - 125, by omega⟩
  obtain ⟨M, hM⟩ : ∃ M, M = (2 ^ 23 + x.mag % 2 ^ 23) * 2 ^ k := ⟨_, rfl⟩
  have hv : magVal x.mag = (M : ℚ) / 2 ^ 24 := by
    unfold magVal magInt unit
    rw [if_neg (by omega), hk, pow_add, show (2 ^ 23 + x.mag % 2 ^ 23) * (2 ^ 125 * 2 ^ k) = M * 2 ^ 125 by rw [hM]; ring,
      Nat.cast_mul, Nat.cast_pow, show (2:ℚ) ^ 149 = 2 ^ 24 * 2 ^ 125 by norm_num]
    push_cast
    rw [mul_div_mul_right _ _ (by norm_num)]
  rw [val_eq, hv]
  split
  · exact ⟨-(M : ℤ), by push_cast; ring⟩
  · exact ⟨(M : ℤ), by push_cast; ring⟩

/-- The warped frequency for low cutoffs. -/
theorem warpF_low {powi : F32 → ℕ → F32} (hp : PowiNear powi) {fc sr : F32} (s0 : 1 ≤ sr.val) (s1 : sr.val ≤ 2 ^ 30)
    (r0 : 1 / 2 ^ 20 ≤ fc.val / sr.val) {R : ℚ} (hR : R ≤ 1 / 3000) (r1 : fc.val / sr.val ≤ R) :
    (warpF powi fc sr).val ≤ 3142 / 1000 * R := by
  have sp : 0 < sr.val := by linarith
  have fp : 0 ≤ fc.val / sr.val := le_trans (by norm_num) r0
  have fp' : 0 ≤ fc.val := by
    have := mul_nonneg fp sp.le
    rwa [div_mul_cancel₀ _ sp.ne'] at this
  have fB : fc.val ≤ 2 ^ 30 := by
    have := r1.trans hR
    rw [div_le_iff₀ sp] at this
    norm_num at s1 ⊢; linarith
  norm_num at fB s1 r0
  have ff : fc.isFin = true := fin_of_val (by rw [abs_of_nonneg fp']; norm_num; linarith)
  have sf : sr.isFin = true := fin_of_val (by rw [abs_of_pos sp]; norm_num; linarith)
  have pf : (lit FMath.piQ : F32).isFin = true := by decide +kernel
  have pv : (lit FMath.piQ : F32).val = 13176795 / 4194304 := by decide +kernel
  obtain ⟨m1, m2⟩ := mul_near (B := 13176795 / 4194304 * fc.val) pf ff (by rw [pv, abs_of_nonneg (by positivity)]) (by norm_num; linarith)
  rw [pv] at m2
  obtain ⟨m2a, m2b⟩ := abs_le.1 m2
  have t : (1:ℚ) / 2 ^ 150 / sr.val ≤ 1 / 2 ^ 150 := div_le_self (by norm_num) s0
  have t0 : (0:ℚ) ≤ 1 / 2 ^ 150 / sr.val := by positivity
  have u1 : (lit FMath.piQ * fc).val / sr.val ≤ 13176795 / 4194304 * (1 + 1 / 2 ^ 24) * (fc.val / sr.val) + 1 / 2 ^ 150 / sr.val := by
    rw [← mul_div_assoc, ← add_div, div_le_div_iff_of_pos_right sp]; linarith
  have u2 : 13176795 / 4194304 * (1 - 1 / 2 ^ 24) * (fc.val / sr.val) - 1 / 2 ^ 150 / sr.val ≤ (lit FMath.piQ * fc).val / sr.val := by
    rw [← mul_div_assoc, ← sub_div, div_le_div_iff_of_pos_right sp]; linarith
  norm_num at u1 u2 t t0
  obtain ⟨d1, d3⟩ := div_near (B := 22 / 7 * (fc.val / sr.val)) m1 sf sp.ne' (by rw [abs_le]; constructor <;> linarith) (by norm_num; linarith)
  obtain ⟨d3a, d3b⟩ := abs_le.1 d3
  have x1 : (lit FMath.piQ * fc / sr).val ≤ 31417 / 10000 * R := by norm_num at d3a d3b ⊢; linarith
  have x00 : 0 ≤ (lit FMath.piQ * fc / sr).val := by norm_num at d3a d3b ⊢; linarith
  obtain ⟨-, e⟩ := fastTan_near hp x00 (x1.trans (by linarith))
  change |(warpF powi fc sr).val - _| ≤ _ at e
  generalize (lit FMath.piQ * fc / sr).val = x at *
  have x1' : x ≤ 1 := x1.trans (by linarith)
  have x2 : x ≤ 11 / 10000 := x1.trans (by linarith)
  have b3 : x ^ 3 ≤ x * (1 / 10 ^ 5) := by
    rw [pow_succ, mul_comm]
    refine mul_le_mul_of_nonneg_left ?_ x00
    have := pow_le_pow_left₀ x00 x2 2
    norm_num at this ⊢; linarith
  have pw : ∀ n : ℕ, 3 ≤ n → 0 ≤ x ^ n ∧ x ^ n ≤ x * (1 / 10 ^ 5) := fun n hn =>
    ⟨pow_nonneg x00 _, (pow_le_pow_of_le_one x00 x1' hn).trans b3⟩
  obtain ⟨a3, b3⟩ := pw 3 (by norm_num)
  obtain ⟨a5, b5⟩ := pw 5 (by norm_num)
  obtain ⟨a7, b7⟩ := pw 7 (by norm_num)
  obtain ⟨a9, b9⟩ := pw 9 (by norm_num)
  obtain ⟨a11, b11⟩ := pw 11 (by norm_num)
  obtain ⟨a13, b13⟩ := pw 13 (by norm_num)
  obtain ⟨a15, b15⟩ := pw 15 (by norm_num)
  unfold tanQ at e
  obtain ⟨ea, eb⟩ := abs_le.1 e
  norm_num at ea eb x1 b3 b5 b7 b9 b11 b13 b15 ⊢
  linarith

/-- Exact arithmetic: a denominator that is not positive at 0 Hz makes a constant run away. -/
theorem runs_away {co : BiquadCoeffs ℝ} (h0 : 0 ≤ co.b0) (h1 : 0 ≤ co.b1) (h2 : 0 ≤ co.b2) (ha : 0 ≤ co.a2) (hd : 1 + co.a1 + co.a2 ≤ 0) (n : ℕ) :
    (co.b0 + co.b1 + co.b2) * n ≤ Biquad.outAt ⟨0, 0, co⟩ (fun _ => 1) (n + 1) := by
  set y := Biquad.outAt ⟨0, 0, co⟩ (fun _ => (1:ℝ)) with hy
  have y0 : y 0 = co.b0 := by simp [hy, Biquad.outAt, Biquad.stateAt, Biquad.process]
  have y1 : y 1 = co.b0 + co.b1 - co.a1 * co.b0 := by simp [hy, Biquad.outAt, Biquad.stateAt, Biquad.process]; ring
  have step : ∀ n, y (n + 2) = co.b0 + co.b1 + co.b2 - co.a1 * y (n + 1) - co.a2 * y n := fun n => by
    have := out_rec ⟨0, 0, co⟩ (fun _ => (1:ℝ)) n
    simp only [mul_one] at this
    exact this
  have main : ∀ n, 0 ≤ y (n + 1) ∧ y n ≤ y (n + 1) ∧ (co.b0 + co.b1 + co.b2) * n ≤ y (n + 1) := by
    intro n
    induction n with
    | zero =>
      rw [y0, y1]
      have : 0 ≤ co.b0 * (-(1 + co.a1)) := mul_nonneg h0 (by linarith)
      refine ⟨by nlinarith, by nlinarith, ?_⟩
      simp only [Nat.cast_zero, mul_zero]; nlinarith
    | succ n ih =>
      obtain ⟨i1, i2, i3⟩ := ih
      have d : y (n + 2) - y (n + 1) = (co.b0 + co.b1 + co.b2) + (-(1 + co.a1 + co.a2)) * y (n + 1) + co.a2 * (y (n + 1) - y n) := by rw [step]; ring
      have p1 : 0 ≤ (-(1 + co.a1 + co.a2)) * y (n + 1) := mul_nonneg (by linarith) i1
      have p2 : 0 ≤ co.a2 * (y (n + 1) - y n) := mul_nonneg ha (by linarith)
      refine ⟨?_, ?_, ?_⟩
      · change 0 ≤ y (n + 2); linarith
      · change y (n + 1) ≤ y (n + 2); linarith
      · change _ ≤ y (n + 2); push_cast; linarith
  exact (main n).2.2

/-- The low-pass coefficients for a very small `k`. -/
theorem low_design {k2 kq : F32} (f1 : k2.isFin = true) (f2 : kq.isFin = true) (k2l : 1 / 2 ^ 40 ≤ k2.val) (k2u : k2.val ≤ 61702 / 10 ^ 13)
    (kql : 0 ≤ kq.val) (kqu : kq.val ≤ 1 / 500) :
    (lowpassOf k2 kq).b0.val + (lowpassOf k2 kq).b1.val + (lowpassOf k2 kq).b2.val < 1 / 2 ^ 25 ∧
    0 < (lowpassOf k2 kq).b0.val ∧ 0 < (lowpassOf k2 kq).b1.val ∧ (lowpassOf k2 kq).b2 = (lowpassOf k2 kq).b0 ∧
    1 / 2 ≤ |(lowpassOf k2 kq).a1.val| ∧ 1 / 2 ≤ (lowpassOf k2 kq).a2.val := by
  norm_num at k2l k2u
  obtain ⟨nn, m1, -, m2⟩ := design_near f1 f2 (by linarith) kql (by norm_num; linarith)
  obtain ⟨co, hco⟩ : ∃ co, co = lowpassOf k2 kq := ⟨_, rfl⟩
  have ea1 : co.a1 = lit 1 / (lit 1 + kq + k2) * lit 2 * (k2 - lit 1) := by rw [hco]; rfl
  have ea2 : co.a2 = lit 1 / (lit 1 + kq + k2) * (lit 1 - kq + k2) := by rw [hco]; rfl
  have eb0 : co.b0 = lit 1 / (lit 1 + kq + k2) * k2 := by rw [hco]; rfl
  have eb1 : co.b1 = lit 1 / (lit 1 + kq + k2) * lit 2 * k2 := by rw [hco]; rfl
  have eb2 : co.b2 = lit 1 / (lit 1 + kq + k2) * k2 := by rw [hco]; rfl
  rw [← hco]
  rw [← ea1] at m1
  rw [← ea2] at m2
  generalize lit 1 / (lit 1 + kq + k2) = N at *
  set a := 1 + kq.val + k2.val with ha
  have a1 : 1 ≤ a := by linarith
  have a2 : a ≤ 101 / 100 := by linarith
  have ap : 0 < a := by linarith
  have i1 : 1 / a ≤ 1 := by rw [div_le_one ap]; exact a1
  have i0 : 99 / 100 ≤ 1 / a := by rw [le_div_iff₀ ap]; linarith
  have w1 : 2 * (k2.val - 1) / a = 2 * (k2.val - 1) * (1 / a) := by ring
  have w2 : (1 - kq.val + k2.val) / a = (1 - kq.val + k2.val) * (1 / a) := by ring
  rw [w1] at m1
  rw [w2] at m2
  obtain ⟨nf, nv⟩ := nn
  have nv' := abs_le.1 nv
  have m1' := abs_le.1 m1.2
  have m2' := abs_le.1 m2.2
  generalize 1 / a = i at *
  norm_num at nv' m1' m2'
  have A1 : 1 / 2 ≤ |co.a1.val| := by
    have u : 2 * (1 - k2.val) * (99 / 100) ≤ 2 * (1 - k2.val) * i := mul_le_mul_of_nonneg_left i0 (by linarith)
    have : co.a1.val < 0 := by linarith
    rw [abs_of_neg this]; linarith
  have A2 : 1 / 2 ≤ co.a2.val := by
    have l : (1 - kq.val + k2.val) * (99 / 100) ≤ (1 - kq.val + k2.val) * i := mul_le_mul_of_nonneg_left i0 (by linarith)
    linarith
  have N1 : N.val ≤ 1000001 / 1000000 := by linarith
  have N0 : 98 / 100 ≤ N.val := by linarith
  have Np : 0 < N.val := by linarith
  have nk : N.val * k2.val ≤ 1000001 / 1000000 * k2.val := mul_le_mul_of_nonneg_right N1 (by linarith)
  have nk0 : 98 / 100 * k2.val ≤ N.val * k2.val := mul_le_mul_of_nonneg_right N0 (by linarith)
  obtain ⟨-, B0⟩ := mul_near (B := N.val * k2.val) nf f1 (by rw [abs_of_pos (by linarith)]) (by norm_num; linarith)
  obtain ⟨n2f, N2⟩ := mul_near (B := 2 * N.val) nf lit2_fin (by rw [lit2_val, abs_of_pos (by positivity)]; linarith) (by norm_num; linarith)
  rw [lit2_val] at N2
  have N2' := abs_le.1 N2
  norm_num at N2'
  have hn2 : (N * lit 2 : F32).val ≤ 2000005 / 1000000 := by linarith
  have hn20 : 19 / 10 ≤ (N * lit 2 : F32).val := by linarith
  have n2k : (N * lit 2 : F32).val * k2.val ≤ 2000005 / 1000000 * k2.val := mul_le_mul_of_nonneg_right hn2 (by linarith)
  have n2k0 : 19 / 10 * k2.val ≤ (N * lit 2 : F32).val * k2.val := mul_le_mul_of_nonneg_right hn20 (by linarith)
  obtain ⟨-, B1⟩ := mul_near (B := (N * lit 2 : F32).val * k2.val) n2f f1 (by rw [abs_of_pos (by linarith)]) (by norm_num; linarith)
  rw [← eb0] at B0
  rw [← eb1] at B1
  have B0' := abs_le.1 B0
  have B1' := abs_le.1 B1
  norm_num at B0' B1'
  have b0p : 0 < co.b0.val := by linarith
  have b1p : 0 < co.b1.val := by linarith
  have e20 : co.b2 = co.b0 := by rw [eb0, eb2]
  have num : co.b0.val + co.b1.val + co.b2.val < 1 / 2 ^ 25 := by rw [e20]; norm_num; linarith
  exact ⟨num, b0p, b1p, e20, A1, A2⟩

/-- C195: below a 40000th of the sample rate no rounded low-pass passes a constant. Either the feedback coefficients fit and less than half
of the constant comes out, or they do not and a constant input drives the output up without end. -/
theorem C195_never {powi : F32 → ℕ → F32} (hp : PowiNear powi) {fc q sr : F32} (s0 : 1 ≤ sr.val) (s1 : sr.val ≤ 2 ^ 30)
    (r0 : 1 / 2 ^ 20 ≤ fc.val / sr.val) (r1 : fc.val / sr.val ≤ 1 / 40000) (q0 : 1 / 16 ≤ q.val) (q1 : q.val ≤ 64) :
    (0 < 1 + (lowpass powi fc q sr).a1.val + (lowpass powi fc q sr).a2.val ∧ dcGain (lowpass powi fc q sr) < 1 / 2 ∧
      ((lowpass powi fc q sr).real.Stable → ∀ z1 z2, Filter.Tendsto (fun n => Biquad.outAt ⟨z1, z2, (lowpass powi fc q sr).real⟩ (fun _ => 1) n)
        Filter.atTop (nhds (dcGain (lowpass powi fc q sr) : ℝ)))) ∨
    (¬ (lowpass powi fc q sr).real.Stable ∧
      ∃ B : ℝ, 0 < B ∧ ∀ n : ℕ, B * n ≤ Biquad.outAt ⟨0, 0, (lowpass powi fc q sr).real⟩ (fun _ => 1) (n + 1)) := by
  obtain ⟨k0, -⟩ := warpF_range hp s0 s1 (l := 1 / 2 ^ 20) le_rfl r0 (r1.trans (by norm_num))
  have k1 := warpF_low hp s0 s1 r0 (by norm_num) r1
  change (0 < 1 + (lowpassOf (warpF powi fc sr * warpF powi fc sr) (warpF powi fc sr / q)).a1.val +
    (lowpassOf (warpF powi fc sr * warpF powi fc sr) (warpF powi fc sr / q)).a2.val ∧
    dcGain (lowpassOf (warpF powi fc sr * warpF powi fc sr) (warpF powi fc sr / q)) < 1 / 2 ∧
      ((lowpassOf (warpF powi fc sr * warpF powi fc sr) (warpF powi fc sr / q)).real.Stable → ∀ z1 z2, Filter.Tendsto
        (fun n => Biquad.outAt ⟨z1, z2, (lowpassOf (warpF powi fc sr * warpF powi fc sr) (warpF powi fc sr / q)).real⟩ (fun _ => 1) n)
        Filter.atTop (nhds (dcGain (lowpassOf (warpF powi fc sr * warpF powi fc sr) (warpF powi fc sr / q)) : ℝ)))) ∨
    (¬ (lowpassOf (warpF powi fc sr * warpF powi fc sr) (warpF powi fc sr / q)).real.Stable ∧
      ∃ B : ℝ, 0 < B ∧ ∀ n : ℕ, B * n ≤ Biquad.outAt ⟨0, 0, (lowpassOf (warpF powi fc sr * warpF powi fc sr) (warpF powi fc sr / q)).real⟩
        (fun _ => 1) (n + 1))
  generalize warpF powi fc sr = k at *
  have kp : 0 < k.val := lt_of_lt_of_le (by norm_num) k0
  have qp : 0 < q.val := lt_of_lt_of_le (by norm_num) q0
  norm_num at k0 k1
  have kf : k.isFin = true := fin_of_val (by rw [abs_of_pos kp]; norm_num; linarith)
  have qf : q.isFin = true := fin_of_val (by rw [abs_of_pos qp]; norm_num; linarith)
  have kk1 : k.val * k.val ≤ (1571 / 20000000) ^ 2 := by nlinarith
  have kk0 : (3141 / 1048576000) ^ 2 ≤ k.val * k.val := by nlinarith
  obtain ⟨f1, g1⟩ := mul_near (B := k.val * k.val) kf kf (by rw [abs_of_pos (by positivity)]) (by norm_num at kk1 ⊢; linarith)
  have kq1 : k.val / q.val ≤ 16 * k.val := by rw [div_le_iff₀ qp]; nlinarith
  have kq0 : 0 < k.val / q.val := div_pos kp qp
  obtain ⟨f2, g2⟩ := div_near (B := 16 * k.val) kf qf qp.ne' (by rw [abs_of_pos kq0]; exact kq1) (by norm_num; linarith)
  have kql : 0 ≤ (k / q).val := by rw [div_fin kf qf qp.ne']; exact rnd_val_nonneg kq0.le
  have g1' := abs_le.1 g1
  have g2' := abs_le.1 g2
  generalize k * k = k2 at *
  generalize k / q = kq at *
  norm_num at g1' g2' kk0 kk1
  have k2u : k2.val ≤ 61702 / 10 ^ 13 := by norm_num; linarith
  have k2l : 1 / 2 ^ 40 ≤ k2.val := by norm_num; linarith
  have kqu : kq.val ≤ 1 / 500 := by norm_num; linarith
  norm_num at k2u k2l kqu
  obtain ⟨num, b0p, b1p, e20, A1, A2⟩ := low_design f1 f2 (by norm_num; exact k2l) (by norm_num; exact k2u) kql (by norm_num; exact kqu)
  generalize lowpassOf k2 kq = co at *
  obtain ⟨u, hu⟩ := val_grid A1
  obtain ⟨v, hv⟩ := val_grid (x := co.a2) (by rw [abs_of_pos (by linarith)]; exact A2)
  have grid : 1 + co.a1.val + co.a2.val = ((2 ^ 24 + u + v : ℤ) : ℚ) / 2 ^ 24 := by rw [hu, hv]; push_cast; field_simp; norm_num
  rcases lt_or_ge 0 (1 + co.a1.val + co.a2.val) with hd | hd
  · left
    have hD : 1 / 2 ^ 24 ≤ 1 + co.a1.val + co.a2.val := by
      rw [grid] at hd ⊢
      have hz : (0:ℚ) < ((2 ^ 24 + u + v : ℤ) : ℚ) := by
        by_contra hc
        exact absurd hd (not_lt.2 (div_nonpos_of_nonpos_of_nonneg (not_lt.1 hc) (by norm_num)))
      have hz' : (1:ℤ) ≤ 2 ^ 24 + u + v := by have : (0:ℤ) < 2 ^ 24 + u + v := by exact_mod_cast hz
                                              omega
      exact div_le_div_of_nonneg_right (by exact_mod_cast hz') (by norm_num)
    refine ⟨hd, ?_, ?_⟩
    · unfold dcGain
      rw [div_lt_iff₀ hd]
      norm_num at num hD ⊢; linarith
    · intro hs z1 z2
      have := settles hs (s := 1) (by simp) (g := ((dcGain co : ℚ) : ℝ)) ?_ ⟨z1, z2, co.real⟩ rfl
      · have h2 := this.add_const ((dcGain co : ℚ) : ℝ)
        simpa using h2
      · rw [Complex.ofReal_one, cgain_one]
        simp only [BiquadCoeffs.real, BiquadCoeffs.map, dcGain]
        push_cast; ring
  · right
    have hd' : 1 + co.real.a1 + co.real.a2 ≤ 0 := by
      have := (Rat.cast_le (K := ℝ)).2 hd
      push_cast at this; exact this
    have c0 : 0 < co.real.b0 := by have := (Rat.cast_lt (K := ℝ)).2 b0p; push_cast at this; exact this
    have c1 : 0 < co.real.b1 := by have := (Rat.cast_lt (K := ℝ)).2 b1p; push_cast at this; exact this
    have c2 : 0 < co.real.b2 := by have e : co.real.b2 = co.real.b0 := by simp only [BiquadCoeffs.real, BiquadCoeffs.map, e20]
                                   rw [e]; exact c0
    have ca : 0 ≤ co.real.a2 := by have := (Rat.cast_lt (K := ℝ)).2 (show 0 < co.a2.val by linarith); push_cast at this; exact this.le
    have away := runs_away c0.le c1.le c2.le ca hd'
    refine ⟨fun hs => ?_, co.real.b0 + co.real.b1 + co.real.b2, by linarith, away⟩
    obtain ⟨G, hG⟩ := C109_bounded hs
    have hG' := hG 1 (fun _ => 1) (fun _ => by simp)
    have hnew : (Biquad.new co.real : Biquad ℝ) = ⟨0, 0, co.real⟩ := by simp [Biquad.new, Lit.lit]
    rw [hnew] at hG'
    obtain ⟨n, hn⟩ := exists_nat_gt (G / (co.real.b0 + co.real.b1 + co.real.b2))
    rw [div_lt_iff₀ (by linarith)] at hn
    have h1 := away n
    have h2 := (le_abs_self _).trans (hG' (n + 1))
    linarith

/-- The hypotheses of `C195_never` hold for 1 Hz at 48 kHz, q = 0.7, where the denominator comes out negative. -/
example : PowiNear powiMul ∧ 1 / 2 ^ 20 ≤ (lit 1 : F32).val / (lit 48000 : F32).val ∧ (lit 1 : F32).val / (lit 48000 : F32).val ≤ 1 / 40000 ∧
    1 + (lowpass powiMul (lit 1) (lit (7 / 10)) (lit 48000)).a1.val + (lowpass powiMul (lit 1) (lit (7 / 10)) (lit 48000)).a2.val = -1 / 2 ^ 24 :=
  ⟨powiMul_near, by decide +kernel, by decide +kernel, by decide +kernel⟩

end Verif
