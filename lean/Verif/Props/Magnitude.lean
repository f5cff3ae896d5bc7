import Verif.Props.Cutoff

/-! # C134, C135, C136: the magnitude of the designs over all frequencies

In exact arithmetic. A frequency is a point `z` of the unit circle; `z.re` falls from 1 at DC to -1 at Nyquist. -/

namespace Verif
open Butterworth

theorem quad_norm {z : ℂ} (hz : ‖z‖ = 1) (a b d : ℝ) :
    ‖(a : ℂ) * z ^ 2 + b * z + d‖ ^ 2 = ((a + d) * z.re + b) ^ 2 + (a - d) ^ 2 * ((1 - z.re) * (1 + z.re)) := by
  have hzz : z.re ^ 2 + z.im ^ 2 = 1 := by
    have := Complex.normSq_eq_norm_sq z; rw [hz, Complex.normSq_apply] at this; nlinarith
  rw [Complex.sq_norm, Complex.normSq_apply]
  simp [sq]
  have : z.im ^ 2 = 1 - z.re ^ 2 := by linarith
  have h4 : z.im ^ 4 = (1 - z.re ^ 2) ^ 2 := by rw [← this]; ring
  ring_nf
  rw [h4, this]
  ring

/-- The squared magnitude of a design written by its three band coefficients `A` (treble), `B` (centre), `C` (bass) and
those of the denominator. -/
theorem shape_magnitude {co : BiquadCoeffs ℝ} (hs : co.Stable) {A B C D E F n : ℝ} (h0 : co.b0 = n * (A + B + C))
    (h1 : co.b1 = n * (2 * (C - A))) (h2 : co.b2 = n * (A - B + C)) (g1 : co.a1 = n * (2 * (F - D)))
    (g2 : co.a2 = n * (D - E + F)) (hn : n * (D + E + F) = 1) {z : ℂ} (hz : ‖z‖ = 1) :
    0 < (F * (1 + z.re) - D * (1 - z.re)) ^ 2 + E ^ 2 * ((1 - z.re) * (1 + z.re)) ∧
    ‖co.cgain z‖ ^ 2 = ((C * (1 + z.re) - A * (1 - z.re)) ^ 2 + B ^ 2 * ((1 - z.re) * (1 + z.re))) /
      ((F * (1 + z.re) - D * (1 - z.re)) ^ 2 + E ^ 2 * ((1 - z.re) * (1 + z.re))) := by
  have n0 : n ≠ 0 := by rintro rfl; simp at hn
  have hd : (co.map (fun r : ℝ => (r : ℂ))).den z ≠ 0 := fun h => absurd (hs z h) (by rw [hz]; exact lt_irrefl 1)
  have e1 : ‖(co.map (fun r : ℝ => (r : ℂ))).num z‖ ^ 2 =
      4 * n ^ 2 * ((C * (1 + z.re) - A * (1 - z.re)) ^ 2 + B ^ 2 * ((1 - z.re) * (1 + z.re))) := by
    have := quad_norm hz co.b0 co.b1 co.b2
    rw [h0, h1, h2] at this
    simp only [BiquadCoeffs.num, BiquadCoeffs.map]
    rw [h0, h1, h2, this]; ring
  have e2 : ‖(co.map (fun r : ℝ => (r : ℂ))).den z‖ ^ 2 =
      4 * n ^ 2 * ((F * (1 + z.re) - D * (1 - z.re)) ^ 2 + E ^ 2 * ((1 - z.re) * (1 + z.re))) := by
    have := quad_norm hz (n * (D + E + F)) co.a1 co.a2
    rw [g1, g2] at this
    simp only [BiquadCoeffs.den, BiquadCoeffs.map]
    rw [g1, g2]
    rw [show z ^ 2 = ((n * (D + E + F) : ℝ) : ℂ) * z ^ 2 by rw [hn]; simp, this]; ring
  have p : 0 < (F * (1 + z.re) - D * (1 - z.re)) ^ 2 + E ^ 2 * ((1 - z.re) * (1 + z.re)) := by
    have : 0 < ‖(co.map (fun r : ℝ => (r : ℂ))).den z‖ ^ 2 := by have := norm_pos_iff.2 hd; positivity
    rw [e2] at this
    exact pos_of_mul_pos_right this (by positivity)
  refine ⟨p, ?_⟩
  unfold BiquadCoeffs.cgain BiquadCoeffs.gain
  rw [norm_div, div_pow, e1, e2]
  have : 4 * n ^ 2 ≠ 0 := by positivity
  exact mul_div_mul_left _ _ this

theorem re_range {z : ℂ} (hz : ‖z‖ = 1) : 0 ≤ 1 - z.re ∧ 0 ≤ 1 + z.re := by
  have := Complex.abs_re_le_norm z
  rw [hz, abs_le] at this
  constructor <;> linarith

section
variable {powi : ℝ → ℕ → ℝ} {sqrt : ℝ → ℝ} {fc q gain sr : ℝ}

theorem lowpass_magnitude (hp : PowiExact powi) (hfc : 0 < fc) (hq : 0 < q) (hsr : 0 < sr) {z : ℂ} (hz : ‖z‖ = 1) :
    0 < (warp powi fc sr ^ 2 * (1 + z.re) - (1 - z.re)) ^ 2 + (warp powi fc sr / q) ^ 2 * ((1 - z.re) * (1 + z.re)) ∧
    ‖(lowpass powi fc q sr).cgain z‖ ^ 2 = (warp powi fc sr ^ 2 * (1 + z.re)) ^ 2 /
      ((warp powi fc sr ^ 2 * (1 + z.re) - (1 - z.re)) ^ 2 + (warp powi fc sr / q) ^ 2 * ((1 - z.re) * (1 + z.re))) := by
  have hk := warp_pos hp hfc hsr
  have hn := nondegenerate hq hk
  have h := shape_magnitude (C35_stable (sqrt := fun x => x) (gain := 1) hp hfc hq hsr).1 (A := 0) (B := 0) (C := warp powi fc sr ^ 2) (D := 1) (E := warp powi fc sr / q)
    (F := warp powi fc sr ^ 2) (n := 1 / (1 + warp powi fc sr / q + warp powi fc sr ^ 2)) (z := z)
    (by simp [lowpass, lowpassOf, setup_eq, Lit.lit]) (by simp [lowpass, lowpassOf, setup_eq, Lit.lit]; ring)
    (by simp [lowpass, lowpassOf, setup_eq, Lit.lit]) (by simp [lowpass, lowpassOf, setup_eq, Lit.lit]; ring)
    (by simp [lowpass, lowpassOf, setup_eq, Lit.lit]) (by field_simp) hz
  simpa using h

theorem highpass_magnitude (hp : PowiExact powi) (hfc : 0 < fc) (hq : 0 < q) (hsr : 0 < sr) {z : ℂ} (hz : ‖z‖ = 1) :
    0 < (warp powi fc sr ^ 2 * (1 + z.re) - (1 - z.re)) ^ 2 + (warp powi fc sr / q) ^ 2 * ((1 - z.re) * (1 + z.re)) ∧
    ‖(highpass powi fc q sr).cgain z‖ ^ 2 = (1 - z.re) ^ 2 /
      ((warp powi fc sr ^ 2 * (1 + z.re) - (1 - z.re)) ^ 2 + (warp powi fc sr / q) ^ 2 * ((1 - z.re) * (1 + z.re))) := by
  have hk := warp_pos hp hfc hsr
  have hn := nondegenerate hq hk
  have h := shape_magnitude (C35_stable (sqrt := fun x => x) (gain := 1) hp hfc hq hsr).2.1 (A := 1) (B := 0) (C := 0) (D := 1) (E := warp powi fc sr / q)
    (F := warp powi fc sr ^ 2) (n := 1 / (1 + warp powi fc sr / q + warp powi fc sr ^ 2)) (z := z)
    (by simp [highpass, highpassOf, setup_eq, Lit.lit]) (by simp [highpass, highpassOf, setup_eq, Lit.lit])
    (by simp [highpass, highpassOf, setup_eq, Lit.lit]) (by simp [highpass, highpassOf, setup_eq, Lit.lit])
    (by simp [highpass, highpassOf, setup_eq, Lit.lit]) (by field_simp) hz
  rw [show (0 * (1 + z.re) - 1 * (1 - z.re)) ^ 2 + (0 : ℝ) ^ 2 * ((1 - z.re) * (1 + z.re)) = (1 - z.re) ^ 2 by ring, one_mul] at h
  exact h

theorem norm_le_of_sq {x y : ℂ} (h : ‖x‖ ^ 2 ≤ ‖y‖ ^ 2) : ‖x‖ ≤ ‖y‖ := (sq_le_sq₀ (norm_nonneg _) (norm_nonneg _)).1 h

/-- Cross products of `u = 1 - re`, `v = 1 + re` at two frequencies. -/
theorem cross_le {z w : ℂ} (h : z.re ≤ w.re) :
    (1 + z.re) * (1 - w.re) ≤ (1 + w.re) * (1 - z.re) := by nlinarith

/-- C134: without resonance (`q² ≤ 1/2`) the low-pass falls and the high-pass rises steadily over the whole band. -/
theorem C134_monotone (hp : PowiExact powi) (hfc : 0 < fc) (hq : 0 < q) (hsr : 0 < sr) (hr : q ^ 2 ≤ 1 / 2) {z w : ℂ} (hz : ‖z‖ = 1)
    (hw : ‖w‖ = 1) (h : z.re ≤ w.re) :
    ‖(lowpass powi fc q sr).cgain z‖ ≤ ‖(lowpass powi fc q sr).cgain w‖ ∧
    ‖(highpass powi fc q sr).cgain w‖ ≤ ‖(highpass powi fc q sr).cgain z‖ := by
  obtain ⟨p1, e1⟩ := lowpass_magnitude hp hfc hq hsr hz
  obtain ⟨p2, e2⟩ := lowpass_magnitude hp hfc hq hsr hw
  obtain ⟨-, e3⟩ := highpass_magnitude hp hfc hq hsr hz
  obtain ⟨-, e4⟩ := highpass_magnitude hp hfc hq hsr hw
  obtain ⟨u1, v1⟩ := re_range hz
  obtain ⟨u2, v2⟩ := re_range hw
  have c := cross_le h
  obtain ⟨s, hs⟩ : ∃ s, s = 1 / q ^ 2 := ⟨_, rfl⟩
  have s2 : 2 ≤ s := by rw [hs, le_div_iff₀ (by positivity)]; linarith
  rw [show (warp powi fc sr / q) ^ 2 = warp powi fc sr ^ 2 * s by rw [hs]; ring] at *
  have k0 : 0 < warp powi fc sr ^ 2 := by have := warp_pos hp hfc hsr; positivity
  generalize warp powi fc sr ^ 2 = K at *
  generalize 1 - z.re = a at *
  generalize 1 + z.re = b at *
  generalize 1 - w.re = a' at *
  generalize 1 + w.re = b' at *
  have sq1 : (b * a') ^ 2 ≤ (b' * a) ^ 2 := pow_le_pow_left₀ (mul_nonneg v1 u2) c 2
  constructor <;> apply norm_le_of_sq
  · rw [e1, e2, div_le_div_iff₀ p1 p2]
    have t : b * a' * (b * b') ≤ b' * a * (b * b') := mul_le_mul_of_nonneg_right c (mul_nonneg v1 v2)
    nlinarith [mul_le_mul_of_nonneg_left sq1 (sq_nonneg K), mul_le_mul_of_nonneg_left t (mul_nonneg (sub_nonneg.2 s2) (pow_pos k0 3).le)]
  · rw [e3, e4, div_le_div_iff₀ p2 p1]
    have t : b * a' * (a * a') ≤ b' * a * (a * a') := mul_le_mul_of_nonneg_right c (mul_nonneg u1 u2)
    nlinarith [mul_le_mul_of_nonneg_left sq1 (sq_nonneg K), mul_le_mul_of_nonneg_left t (mul_nonneg (sub_nonneg.2 s2) k0.le)]

/-- C134: and beyond the cutoff they fall off by 12 dB per octave of the warped frequency `t = tan(θ/2)`, `t² = (1-re)/(1+re)`. -/
theorem C134_slope (hp : PowiExact powi) (hfc : 0 < fc) (hq : 0 < q) (hsr : 0 < sr) (hr : q ^ 2 ≤ 1 / 2) {z : ℂ} (hz : ‖z‖ = 1) :
    ‖(lowpass powi fc q sr).cgain z‖ * (1 - z.re) ≤ warp powi fc sr ^ 2 * (1 + z.re) ∧
    ‖(highpass powi fc q sr).cgain z‖ * (warp powi fc sr ^ 2 * (1 + z.re)) ≤ 1 - z.re := by
  obtain ⟨p1, e1⟩ := lowpass_magnitude hp hfc hq hsr hz
  obtain ⟨-, e3⟩ := highpass_magnitude hp hfc hq hsr hz
  obtain ⟨u1, v1⟩ := re_range hz
  obtain ⟨s, hs⟩ : ∃ s, s = 1 / q ^ 2 := ⟨_, rfl⟩
  have s2 : 2 ≤ s := by rw [hs, le_div_iff₀ (by positivity)]; linarith
  rw [show (warp powi fc sr / q) ^ 2 = warp powi fc sr ^ 2 * s by rw [hs]; ring] at *
  have k0 : 0 < warp powi fc sr ^ 2 := by have := warp_pos hp hfc hsr; positivity
  generalize warp powi fc sr ^ 2 = K at *
  generalize 1 - z.re = a at *
  generalize 1 + z.re = b at *
  have t : 0 ≤ (s - 2) * K * (a * b) := mul_nonneg (mul_nonneg (sub_nonneg.2 s2) k0.le) (mul_nonneg u1 v1)
  constructor
  · refine (sq_le_sq₀ (mul_nonneg (norm_nonneg _) u1) (mul_nonneg k0.le v1)).1 ?_
    rw [mul_pow, e1, div_mul_eq_mul_div, div_le_iff₀ p1]
    refine mul_le_mul_of_nonneg_left ?_ (sq_nonneg _)
    nlinarith [sq_nonneg (K * b)]
  · refine (sq_le_sq₀ (mul_nonneg (norm_nonneg _) (mul_nonneg k0.le v1)) u1).1 ?_
    rw [mul_pow, e3, div_mul_eq_mul_div, div_le_iff₀ p1]
    refine mul_le_mul_of_nonneg_left ?_ (sq_nonneg _)
    nlinarith [sq_nonneg a]

/-- A point of the unit circle with `(1 - re) = r (1 + re)`. -/
theorem circle_point {r : ℝ} (r0 : 0 ≤ r) : ∃ z : ℂ, ‖z‖ = 1 ∧ 1 - z.re = r * (1 + z.re) ∧ 0 < 1 + z.re := by
  refine ⟨⟨(1 - r) / (1 + r), 2 * Real.sqrt r / (1 + r)⟩, ?_, ?_, ?_⟩
  · have h : ‖(⟨(1 - r) / (1 + r), 2 * Real.sqrt r / (1 + r)⟩ : ℂ)‖ ^ 2 = 1 := by
      rw [Complex.sq_norm, Complex.normSq_apply]
      have := Real.mul_self_sqrt r0
      have h1 : (1 + r) ≠ 0 := by positivity
      field_simp
      nlinarith
    exact (pow_eq_one_iff_of_nonneg (norm_nonneg _) two_ne_zero).1 h
  · have h1 : (1 + r) ≠ 0 := by positivity
    show 1 - (1 - r) / (1 + r) = r * (1 + (1 - r) / (1 + r))
    field_simp; ring
  · show 0 < 1 + (1 - r) / (1 + r)
    have h1 : 0 < 1 + r := by positivity
    rw [show 1 + (1 - r) / (1 + r) = 2 / (1 + r) by field_simp; ring]
    positivity

/-- C134: with resonance the largest gain over all frequencies is `q / √(1 - 1/(4q²))`, for both. -/
theorem C134_peak (hp : PowiExact powi) (hfc : 0 < fc) (hq : 0 < q) (hsr : 0 < sr) (hr : 1 / 2 ≤ q ^ 2) :
    IsGreatest {g | ∃ z : ℂ, ‖z‖ = 1 ∧ g = ‖(lowpass powi fc q sr).cgain z‖} (q / Real.sqrt (1 - 1 / (4 * q ^ 2))) ∧
    IsGreatest {g | ∃ z : ℂ, ‖z‖ = 1 ∧ g = ‖(highpass powi fc q sr).cgain z‖} (q / Real.sqrt (1 - 1 / (4 * q ^ 2))) := by
  obtain ⟨s, hs⟩ : ∃ s, s = 1 / q ^ 2 := ⟨_, rfl⟩
  have s0 : 0 < s := by rw [hs]; positivity
  have s2 : s ≤ 2 := by rw [hs, div_le_iff₀ (by positivity)]; linarith
  have k0 : 0 < warp powi fc sr ^ 2 := by have := warp_pos hp hfc hsr; positivity
  have d0 : 0 < 1 - s / 4 := by linarith
  have hP : 0 ≤ q / Real.sqrt (1 - 1 / (4 * q ^ 2)) := by positivity
  have hP2 : (q / Real.sqrt (1 - 1 / (4 * q ^ 2))) ^ 2 = 1 / (s * (1 - s / 4)) := by
    rw [div_pow, Real.sq_sqrt (by rw [show 1 / (4 * q ^ 2) = s / 4 by rw [hs]; ring]; exact d0.le), show 1 / (4 * q ^ 2) = s / 4 by rw [hs]; ring,
      show q ^ 2 = 1 / s by rw [hs]; field_simp]
    field_simp
  have ek : (warp powi fc sr / q) ^ 2 = warp powi fc sr ^ 2 * s := by rw [hs]; ring
  have sd : 0 < s * (1 - s / 4) := mul_pos s0 d0
  refine ⟨⟨?_, ?_⟩, ?_, ?_⟩
  · obtain ⟨z, hz, hre, -⟩ := circle_point (r := warp powi fc sr ^ 2 * (1 - s / 2)) (mul_nonneg k0.le (by linarith))
    refine ⟨z, hz, (sq_eq_sq₀ hP (norm_nonneg _)).1 ?_⟩
    obtain ⟨p1, e1⟩ := lowpass_magnitude hp hfc hq hsr hz
    rw [hP2, e1, eq_comm, div_eq_div_iff p1.ne' sd.ne', ek, hre]
    ring
  · rintro g ⟨z, hz, rfl⟩
    refine (sq_le_sq₀ (norm_nonneg _) hP).1 ?_
    obtain ⟨p1, e1⟩ := lowpass_magnitude hp hfc hq hsr hz
    rw [hP2, e1, div_le_div_iff₀ p1 sd, ek]
    nlinarith [sq_nonneg (1 - z.re - (1 - s / 2) * (warp powi fc sr ^ 2 * (1 + z.re)))]
  · obtain ⟨w, hw, hre, -⟩ := circle_point (r := (1 - s / 2) / warp powi fc sr ^ 2) (div_nonneg (by linarith) k0.le)
    have hz : ‖-w‖ = 1 := by rw [norm_neg]; exact hw
    have hre' : warp powi fc sr ^ 2 * (1 + (-w).re) = (1 - s / 2) * (1 - (-w).re) := by
      have := (warp_pos hp hfc hsr).ne'
      rw [Complex.neg_re, ← sub_eq_add_neg, hre, sub_neg_eq_add]; field_simp
    refine ⟨-w, hz, (sq_eq_sq₀ hP (norm_nonneg _)).1 ?_⟩
    obtain ⟨p1, e1⟩ := highpass_magnitude hp hfc hq hsr hz
    rw [hP2, e1, eq_comm, div_eq_div_iff p1.ne' sd.ne', ek, show warp powi fc sr ^ 2 * s * ((1 - (-w).re) * (1 + (-w).re)) =
      s * (1 - (-w).re) * (warp powi fc sr ^ 2 * (1 + (-w).re)) by ring, hre']
    ring
  · rintro g ⟨z, hz, rfl⟩
    refine (sq_le_sq₀ (norm_nonneg _) hP).1 ?_
    obtain ⟨p1, e1⟩ := highpass_magnitude hp hfc hq hsr hz
    rw [hP2, e1, div_le_div_iff₀ p1 sd, ek]
    nlinarith [sq_nonneg (warp powi fc sr ^ 2 * (1 + z.re) - (1 - s / 2) * (1 - z.re))]

/-! ## C135 -/

theorem notch_magnitude (hp : PowiExact powi) (hfc : 0 < fc) (hq : 0 < q) (hsr : 0 < sr) {z : ℂ} (hz : ‖z‖ = 1) :
    0 < (warp powi fc sr ^ 2 * (1 + z.re) - (1 - z.re)) ^ 2 + (warp powi fc sr / q) ^ 2 * ((1 - z.re) * (1 + z.re)) ∧
    ‖(notch powi fc q sr).cgain z‖ ^ 2 = (warp powi fc sr ^ 2 * (1 + z.re) - (1 - z.re)) ^ 2 /
      ((warp powi fc sr ^ 2 * (1 + z.re) - (1 - z.re)) ^ 2 + (warp powi fc sr / q) ^ 2 * ((1 - z.re) * (1 + z.re))) := by
  have hk := warp_pos hp hfc hsr
  have hn := nondegenerate hq hk
  have h := shape_magnitude (C35_stable (sqrt := fun x => x) (gain := 1) hp hfc hq hsr).2.2.2.1 (A := 1) (B := 0) (C := warp powi fc sr ^ 2) (D := 1)
    (E := warp powi fc sr / q) (F := warp powi fc sr ^ 2) (n := 1 / (1 + warp powi fc sr / q + warp powi fc sr ^ 2)) (z := z)
    (by simp [notch, notchOf, setup_eq, Lit.lit]) (by simp [notch, notchOf, setup_eq, Lit.lit])
    (by simp [notch, notchOf, setup_eq, Lit.lit]) (by simp [notch, notchOf, setup_eq, Lit.lit])
    (by simp [notch, notchOf, setup_eq, Lit.lit]) (by field_simp) hz
  simpa using h

theorem bellBoost_magnitude (hp : PowiExact powi) (hfc : 0 < fc) (hq : 0 < q) (hsr : 0 < sr) (gain : ℝ) {z : ℂ} (hz : ‖z‖ = 1) :
    ‖(bellBoost powi fc q gain sr).cgain z‖ ^ 2 =
      ((warp powi fc sr ^ 2 * (1 + z.re) - (1 - z.re)) ^ 2 + gain ^ 2 * ((warp powi fc sr / q) ^ 2 * ((1 - z.re) * (1 + z.re)))) /
      ((warp powi fc sr ^ 2 * (1 + z.re) - (1 - z.re)) ^ 2 + (warp powi fc sr / q) ^ 2 * ((1 - z.re) * (1 + z.re))) := by
  have hk := warp_pos hp hfc hsr
  have hn := nondegenerate hq hk
  have h := shape_magnitude (C35_stable (sqrt := fun x => x) (gain := gain) hp hfc hq hsr).2.2.2.2.1 (A := 1) (B := gain * (warp powi fc sr / q))
    (C := warp powi fc sr ^ 2) (D := 1)
    (E := warp powi fc sr / q) (F := warp powi fc sr ^ 2) (n := 1 / (1 + warp powi fc sr / q + warp powi fc sr ^ 2)) (z := z)
    (by simp [bellBoost, bellBoostOf, setup_eq, Lit.lit]) (by simp [bellBoost, bellBoostOf, setup_eq, Lit.lit])
    (by simp [bellBoost, bellBoostOf, setup_eq, Lit.lit]) (by simp [bellBoost, bellBoostOf, setup_eq, Lit.lit])
    (by simp [bellBoost, bellBoostOf, setup_eq, Lit.lit]) (by field_simp) hz
  rw [h.2, one_mul, mul_pow, mul_assoc]

theorem bellCut_magnitude (hp : PowiExact powi) (hfc : 0 < fc) (hq : 0 < q) (hsr : 0 < sr) {gain : ℝ} (hg : gain < 0) {z : ℂ} (hz : ‖z‖ = 1) :
    0 < (warp powi fc sr ^ 2 * (1 + z.re) - (1 - z.re)) ^ 2 + gain ^ 2 * ((warp powi fc sr / q) ^ 2 * ((1 - z.re) * (1 + z.re))) ∧
    ‖(bellCut powi fc q gain sr).cgain z‖ ^ 2 =
      ((warp powi fc sr ^ 2 * (1 + z.re) - (1 - z.re)) ^ 2 + (warp powi fc sr / q) ^ 2 * ((1 - z.re) * (1 + z.re))) /
      ((warp powi fc sr ^ 2 * (1 + z.re) - (1 - z.re)) ^ 2 + gain ^ 2 * ((warp powi fc sr / q) ^ 2 * ((1 - z.re) * (1 + z.re)))) := by
  have hk := warp_pos hp hfc hsr
  have hkq : 0 < warp powi fc sr / q := by positivity
  have hn : 1 + -gain * (warp powi fc sr / q) + warp powi fc sr ^ 2 ≠ 0 := by
    have := mul_pos (neg_pos.2 hg) hkq; positivity
  have h := shape_magnitude ((C35_stable (sqrt := fun x => x) (gain := gain) hp hfc hq hsr).2.2.2.2.2.2.1 hg) (A := 1) (B := warp powi fc sr / q)
    (C := warp powi fc sr ^ 2) (D := 1)
    (E := -gain * (warp powi fc sr / q)) (F := warp powi fc sr ^ 2) (n := 1 / (1 + -gain * (warp powi fc sr / q) + warp powi fc sr ^ 2)) (z := z)
    (by simp [bellCut, bellCutOf, setup_eq, Lit.lit]) (by simp [bellCut, bellCutOf, setup_eq, Lit.lit])
    (by simp [bellCut, bellCutOf, setup_eq, Lit.lit]) (by simp [bellCut, bellCutOf, setup_eq, Lit.lit])
    (by simp [bellCut, bellCutOf, setup_eq, Lit.lit]) (one_div_mul_cancel hn) hz
  rw [one_mul, mul_pow, neg_sq, mul_assoc] at h
  exact h

/-- C135: the notch amplifies no frequency. -/
theorem C135_notch_range (hp : PowiExact powi) (hfc : 0 < fc) (hq : 0 < q) (hsr : 0 < sr) {z : ℂ} (hz : ‖z‖ = 1) :
    ‖(notch powi fc q sr).cgain z‖ ≤ 1 := by
  obtain ⟨p1, e1⟩ := notch_magnitude hp hfc hq hsr hz
  obtain ⟨u1, v1⟩ := re_range hz
  refine (sq_le_sq₀ (norm_nonneg _) zero_le_one).1 ?_
  rw [e1, one_pow, div_le_one p1]
  have := mul_nonneg (sq_nonneg (warp powi fc sr / q)) (mul_nonneg u1 v1)
  linarith

theorem tone_re (θ : ℝ) : (tone θ).re = Real.cos θ := by unfold tone; exact Complex.exp_ofReal_mul_I_re θ

theorem half_angle {θ : ℝ} (h0 : 0 < θ) (h1 : θ < Real.pi) :
    1 - (tone θ).re = Real.tan (θ / 2) ^ 2 * (1 + (tone θ).re) ∧ 0 < 1 + (tone θ).re ∧ 0 < Real.tan (θ / 2) := by
  have c0 : 0 < Real.cos (θ / 2) := Real.cos_pos_of_mem_Ioo ⟨by linarith [Real.pi_pos], by linarith⟩
  have e : Real.cos θ = 2 * Real.cos (θ / 2) ^ 2 - 1 := by rw [← Real.cos_two_mul]; ring_nf
  have s := Real.sin_sq_add_cos_sq (θ / 2)
  rw [tone_re, e, Real.tan_eq_sin_div_cos]
  refine ⟨?_, by nlinarith, div_pos (Real.sin_pos_of_mem_Ioo ⟨by linarith, by linarith⟩) c0⟩
  field_simp
  nlinarith

/-- The half-power points of the notch. -/
theorem notch_half (hp : PowiExact powi) (hfc : 0 < fc) (hq : 0 < q) (hsr : 0 < sr) {θ : ℝ} (h0 : 0 < θ) (h1 : θ < Real.pi) :
    ‖(notch powi fc q sr).cgain (tone θ)‖ ^ 2 = 1 / 2 ↔
      (warp powi fc sr ^ 2 - Real.tan (θ / 2) ^ 2) ^ 2 = (warp powi fc sr / q * Real.tan (θ / 2)) ^ 2 := by
  obtain ⟨p1, e1⟩ := notch_magnitude hp hfc hq hsr (tone_norm θ)
  obtain ⟨e, b, t⟩ := half_angle h0 h1
  rw [e1, div_eq_div_iff p1.ne' two_ne_zero, e]
  generalize 1 + (tone θ).re = y at *
  have y2 : y ^ 2 ≠ 0 := by positivity
  rw [show (warp powi fc sr ^ 2 * y - Real.tan (θ / 2) ^ 2 * y) ^ 2 = (warp powi fc sr ^ 2 - Real.tan (θ / 2) ^ 2) ^ 2 * y ^ 2 by ring,
    show (warp powi fc sr / q) ^ 2 * (Real.tan (θ / 2) ^ 2 * y * y) = (warp powi fc sr / q * Real.tan (θ / 2)) ^ 2 * y ^ 2 by ring]
  constructor
  · intro h
    apply mul_right_cancel₀ y2
    linarith
  · intro h
    rw [h]; ring

/-- C135: there are exactly two frequencies at which the notch halves the power, on either side of the centre, and `q` is
the centre over their distance (in the warped frequency `tan(θ/2)`). -/
theorem C135_notch_width (hp : PowiExact powi) (hfc : 0 < fc) (hq : 0 < q) (hsr : 0 < sr) :
    ∃ θ₁ θ₂ : ℝ, 0 < θ₁ ∧ θ₁ < θ₂ ∧ θ₂ < Real.pi ∧ Real.tan (θ₁ / 2) < warp powi fc sr ∧ warp powi fc sr < Real.tan (θ₂ / 2) ∧
      q * (Real.tan (θ₂ / 2) - Real.tan (θ₁ / 2)) = warp powi fc sr ∧
      ∀ θ : ℝ, 0 < θ → θ < Real.pi → (‖(notch powi fc q sr).cgain (tone θ)‖ ^ 2 = 1 / 2 ↔ θ = θ₁ ∨ θ = θ₂) := by
  have k0 := warp_pos hp hfc hsr
  have l0 : 0 < warp powi fc sr / q := by positivity
  have hql : q * (warp powi fc sr / q) = warp powi fc sr := by field_simp
  have half := fun θ h0 h1 => notch_half hp hfc hq hsr (θ := θ) h0 h1
  generalize warp powi fc sr = k at *
  generalize k / q = l at *
  obtain ⟨d, d0, hd⟩ : ∃ d, 0 < d ∧ d ^ 2 = l ^ 2 + 4 * k ^ 2 := ⟨Real.sqrt (l ^ 2 + 4 * k ^ 2), by positivity, Real.sq_sqrt (by positivity)⟩
  have dl : l < d := by nlinarith
  have dk : d < l + 2 * k := by nlinarith [mul_pos l0 k0]
  have dk2 : 2 * k < d := by nlinarith
  have ta : ∀ t : ℝ, 0 < t → 0 < 2 * Real.arctan t ∧ 2 * Real.arctan t < Real.pi ∧ Real.tan (2 * Real.arctan t / 2) = t := by
    intro t ht
    refine ⟨by have := Real.arctan_pos.2 ht; linarith, by linarith [Real.arctan_lt_pi_div_two t], ?_⟩
    rw [mul_div_cancel_left₀ _ two_ne_zero, Real.tan_arctan]
  obtain ⟨a1, a2, a3⟩ := ta ((d - l) / 2) (by linarith)
  obtain ⟨b1, b2, b3⟩ := ta ((d + l) / 2) (by linarith)
  refine ⟨_, _, a1, ?_, b2, by rw [a3]; linarith, by rw [b3]; linarith, by rw [a3, b3]; linarith, fun θ h0 h1 => ?_⟩
  · have := Real.arctan_strictMono (show (d - l) / 2 < (d + l) / 2 by linarith)
    linarith
  · rw [half θ h0 h1]
    obtain ⟨-, -, t0⟩ := half_angle h0 h1
    have at' : 2 * Real.arctan (Real.tan (θ / 2)) = θ := by rw [Real.arctan_tan (by linarith [Real.pi_pos]) (by linarith)]; ring
    rw [show (θ = 2 * Real.arctan ((d - l) / 2)) ↔ Real.tan (θ / 2) = (d - l) / 2 from
      ⟨fun h => by rw [h, a3], fun h => by rw [← h, at']⟩, show (θ = 2 * Real.arctan ((d + l) / 2)) ↔ Real.tan (θ / 2) = (d + l) / 2 from
      ⟨fun h => by rw [h, b3], fun h => by rw [← h, at']⟩]
    generalize Real.tan (θ / 2) = t at *
    have f : (k ^ 2 - t ^ 2) ^ 2 - (l * t) ^ 2 = (t - (d - l) / 2) * (t + (d + l) / 2) * ((t - (d + l) / 2) * (t + (d - l) / 2)) := by
      have : k ^ 2 = (d ^ 2 - l ^ 2) / 4 := by linarith
      rw [this]; ring
    rw [← sub_eq_zero, f, mul_eq_zero, mul_eq_zero, mul_eq_zero]
    have n1 : t + (d + l) / 2 ≠ 0 := by positivity
    have n2 : t + (d - l) / 2 ≠ 0 := by have : 0 < d - l := by linarith
                                        positivity
    rw [sub_eq_zero, sub_eq_zero]
    tauto

/-- C135: a bell boost of `gain ≥ 1` lies between 1 and `gain` at every frequency, and a cut between `1/gain` and 1. -/
theorem C135_bell_range (hp : PowiExact powi) (hfc : 0 < fc) (hq : 0 < q) (hsr : 0 < sr) (hg : 1 ≤ gain) {pos : ℝ → Bool}
    (hpos : pos gain = true) (hneg : pos (-gain) = false) {z : ℂ} (hz : ‖z‖ = 1) :
    1 ≤ ‖(bell powi fc q gain sr pos).cgain z‖ ∧ ‖(bell powi fc q gain sr pos).cgain z‖ ≤ gain ∧
    1 / gain ≤ ‖(bell powi fc q (-gain) sr pos).cgain z‖ ∧ ‖(bell powi fc q (-gain) sr pos).cgain z‖ ≤ 1 := by
  have g0 : 0 < gain := by linarith
  have e1 := bellBoost_magnitude hp hfc hq hsr gain hz
  obtain ⟨p2, e2⟩ := bellCut_magnitude hp hfc hq hsr (neg_lt_zero.2 g0) hz
  obtain ⟨p1, -⟩ := notch_magnitude hp hfc hq hsr hz
  obtain ⟨u1, v1⟩ := re_range hz
  simp only [bell, hpos, hneg, if_true, Bool.false_eq_true, if_false]
  rw [neg_sq] at p2 e2
  have m0 := mul_nonneg (sq_nonneg (warp powi fc sr / q)) (mul_nonneg u1 v1)
  have n0 := sq_nonneg (warp powi fc sr ^ 2 * (1 + z.re) - (1 - z.re))
  generalize (warp powi fc sr / q) ^ 2 * ((1 - z.re) * (1 + z.re)) = y at *
  generalize (warp powi fc sr ^ 2 * (1 + z.re) - (1 - z.re)) ^ 2 = x at *
  have g1 : 1 ≤ gain ^ 2 := one_le_pow₀ hg
  refine ⟨?_, ?_, ?_, ?_⟩
  · refine (sq_le_sq₀ zero_le_one (norm_nonneg _)).1 ?_
    rw [e1, one_pow, le_div_iff₀ p1]; nlinarith
  · refine (sq_le_sq₀ (norm_nonneg _) g0.le).1 ?_
    rw [e1, div_le_iff₀ p1]; nlinarith
  · refine (sq_le_sq₀ (by positivity) (norm_nonneg _)).1 ?_
    rw [e2, one_div_pow, div_le_div_iff₀ (by positivity) p2]; nlinarith
  · refine (sq_le_sq₀ (norm_nonneg _) zero_le_one).1 ?_
    rw [e2, one_pow, div_le_one p2]; nlinarith

/-- On the low side, `a/b ≤ a'/b' ≤ K`. -/
theorem nearer {a b a' b' K : ℝ} (u2 : 0 ≤ a') (b0 : 0 < b') (b1 : 0 < b) (c : b' * a ≤ b * a') (d1 : a' ≤ K * b') :
    a * b * (K * b' - a') ^ 2 ≤ a' * b' * (K * b - a) ^ 2 := by
  have m1 : b * (K * b' - a') ≤ b' * (K * b - a) := by linarith
  have m2 := pow_le_pow_left₀ (mul_nonneg b1.le (sub_nonneg.2 d1)) m1 2
  have m3 : a * b' * (b * (K * b' - a')) ^ 2 ≤ a' * b * (b' * (K * b - a)) ^ 2 :=
    mul_le_mul (by linarith) m2 (sq_nonneg _) (mul_nonneg u2 b1.le)
  refine le_of_mul_le_mul_left ?_ (mul_pos b1 b0)
  linarith

/-- C135: nearer the centre on the same side, a boost is no smaller and a cut no weaker. -/
theorem C135_bell_slopes (hp : PowiExact powi) (hfc : 0 < fc) (hq : 0 < q) (hsr : 0 < sr) (hg : 1 ≤ gain) {pos : ℝ → Bool}
    (hpos : pos gain = true) (hneg : pos (-gain) = false) {z w : ℂ} (hz : ‖z‖ = 1) (hw : ‖w‖ = 1)
    (h : ((1 - warp powi fc sr ^ 2) / (1 + warp powi fc sr ^ 2) ≤ w.re ∧ w.re ≤ z.re) ∨
      (z.re ≤ w.re ∧ w.re ≤ (1 - warp powi fc sr ^ 2) / (1 + warp powi fc sr ^ 2))) :
    ‖(bell powi fc q gain sr pos).cgain z‖ ≤ ‖(bell powi fc q gain sr pos).cgain w‖ ∧
    ‖(bell powi fc q (-gain) sr pos).cgain w‖ ≤ ‖(bell powi fc q (-gain) sr pos).cgain z‖ := by
  have g0 : 0 < gain := by linarith
  have e1 := bellBoost_magnitude hp hfc hq hsr gain hz
  have f1 := bellBoost_magnitude hp hfc hq hsr gain hw
  obtain ⟨p2, e2⟩ := bellCut_magnitude hp hfc hq hsr (neg_lt_zero.2 g0) hz
  obtain ⟨r2, f2⟩ := bellCut_magnitude hp hfc hq hsr (neg_lt_zero.2 g0) hw
  obtain ⟨p1, -⟩ := notch_magnitude hp hfc hq hsr hz
  obtain ⟨r1, -⟩ := notch_magnitude hp hfc hq hsr hw
  obtain ⟨u1, v1⟩ := re_range hz
  obtain ⟨u2, v2⟩ := re_range hw
  have k0 : 0 < warp powi fc sr ^ 2 := by have := warp_pos hp hfc hsr; positivity
  simp only [bell, hpos, hneg, if_true, Bool.false_eq_true, if_false]
  rw [neg_sq] at p2 e2 r2 f2
  rw [div_le_iff₀ (by positivity), le_div_iff₀ (by positivity)] at h
  have g1 : 1 ≤ gain ^ 2 := one_le_pow₀ hg
  have key : (1 - z.re) * (1 + z.re) * (warp powi fc sr ^ 2 * (1 + w.re) - (1 - w.re)) ^ 2 ≤
      (1 - w.re) * (1 + w.re) * (warp powi fc sr ^ 2 * (1 + z.re) - (1 - z.re)) ^ 2 := by
    rcases h with ⟨h1, h2⟩ | ⟨h1, h2⟩
    · have b0 : 0 < 1 + w.re := by nlinarith
      exact nearer u2 b0 (by linarith) (cross_le h2) (by linarith)
    · have b0 : 0 < 1 - w.re := by nlinarith
      have := nearer (a := 1 + z.re) (K := 1 / warp powi fc sr ^ 2) v2 b0 (by linarith : 0 < 1 - z.re) (by linarith [cross_le h1]) (by
        rw [div_mul_eq_mul_div, le_div_iff₀ k0]; linarith)
      have inv : ∀ {K : ℝ}, 0 < K → ∀ a b : ℝ, (1 / K * a - b) ^ 2 = (K * b - a) ^ 2 / K ^ 2 := fun hK a b => by
        have := hK.ne'; field_simp; ring
      rw [inv k0, inv k0, ← mul_div_assoc, ← mul_div_assoc, div_le_div_iff_of_pos_right (by positivity)] at this
      linarith
  have l0 := sq_nonneg (warp powi fc sr / q)
  have lg := mul_nonneg l0 (sub_nonneg.2 g1)
  generalize (warp powi fc sr / q) ^ 2 = l at *
  generalize (1 - z.re) * (1 + z.re) = y at *
  generalize (1 - w.re) * (1 + w.re) = y' at *
  generalize (warp powi fc sr ^ 2 * (1 + z.re) - (1 - z.re)) ^ 2 = x at *
  generalize (warp powi fc sr ^ 2 * (1 + w.re) - (1 - w.re)) ^ 2 = x' at *
  have m := mul_le_mul_of_nonneg_left key lg
  constructor <;> apply norm_le_of_sq
  · rw [e1, f1, div_le_div_iff₀ p1 r1]; linarith
  · rw [e2, f2, div_le_div_iff₀ r2 p2]; linarith

/-! ## C136 -/

/-- The square root used by the shelves, in exact arithmetic. -/
def SqrtExact (sqrt : ℝ → ℝ) : Prop := ∀ y, 0 ≤ y → sqrt y = Real.sqrt y

theorem lowShelfBoost_magnitude (hp : PowiExact powi) (hsq : SqrtExact sqrt) (hfc : 0 < fc) (hq : 0 < q) (hsr : 0 < sr) (hg : 0 ≤ gain) {z : ℂ}
    (hz : ‖z‖ = 1) :
    ‖(lowShelfBoost powi sqrt fc q gain sr).cgain z‖ ^ 2 =
      ((gain * (warp powi fc sr ^ 2 * (1 + z.re))) ^ 2 + (1 - z.re) ^ 2) /
      ((warp powi fc sr ^ 2 * (1 + z.re) - (1 - z.re)) ^ 2 + (warp powi fc sr / q) ^ 2 * ((1 - z.re) * (1 + z.re))) := by
  have hk := warp_pos hp hfc hsr
  have hn := nondegenerate hq hk
  have h := shape_magnitude (C35_stable (sqrt := sqrt) (gain := gain) hp hfc hq hsr).2.2.2.2.2.1 (A := 1)
    (B := sqrt (gain * 2 * warp powi fc sr ^ 2)) (C := gain * warp powi fc sr ^ 2) (D := 1)
    (E := warp powi fc sr / q) (F := warp powi fc sr ^ 2) (n := 1 / (1 + warp powi fc sr / q + warp powi fc sr ^ 2)) (z := z)
    (by simp [lowShelfBoost, lowShelfBoostOf, setup_eq, Lit.lit]) (by simp [lowShelfBoost, lowShelfBoostOf, setup_eq, Lit.lit])
    (by simp [lowShelfBoost, lowShelfBoostOf, setup_eq, Lit.lit]) (by simp [lowShelfBoost, lowShelfBoostOf, setup_eq, Lit.lit])
    (by simp [lowShelfBoost, lowShelfBoostOf, setup_eq, Lit.lit]) (by field_simp) hz
  rw [h.2, one_mul, hsq _ (by positivity), Real.sq_sqrt (by positivity)]
  congr 1; ring

theorem lowShelfCut_magnitude (hp : PowiExact powi) (hsq : SqrtExact sqrt) (hfc : 0 < fc) (hq : 0 < q) (hsr : 0 < sr) (hg : 0 < gain) {z : ℂ}
    (hz : ‖z‖ = 1) :
    0 < (gain * (warp powi fc sr ^ 2 * (1 + z.re))) ^ 2 + (1 - z.re) ^ 2 ∧
    ‖(lowShelfCut powi sqrt fc q (-gain) sr).cgain z‖ ^ 2 =
      ((warp powi fc sr ^ 2 * (1 + z.re) - (1 - z.re)) ^ 2 + (warp powi fc sr / q) ^ 2 * ((1 - z.re) * (1 + z.re))) /
      ((gain * (warp powi fc sr ^ 2 * (1 + z.re))) ^ 2 + (1 - z.re) ^ 2) := by
  have hk := warp_pos hp hfc hsr
  have s0 : 0 < sqrt (gain * 2 * warp powi fc sr ^ 2) := by rw [hsq _ (by positivity)]; positivity
  have hn : 1 + sqrt (gain * 2 * warp powi fc sr ^ 2) + gain * warp powi fc sr ^ 2 ≠ 0 := by positivity
  have h := shape_magnitude ((C35_stable (sqrt := sqrt) (gain := -gain) hp hfc hq hsr).2.2.2.2.2.2.2 (neg_lt_zero.2 hg) (by rw [neg_neg]; exact s0)) (A := 1)
    (B := warp powi fc sr / q) (C := warp powi fc sr ^ 2) (D := 1)
    (E := sqrt (gain * 2 * warp powi fc sr ^ 2)) (F := gain * warp powi fc sr ^ 2)
    (n := 1 / (1 + sqrt (gain * 2 * warp powi fc sr ^ 2) + gain * warp powi fc sr ^ 2)) (z := z)
    (by simp [lowShelfCut, lowShelfCutOf, setup_eq, Lit.lit]) (by simp [lowShelfCut, lowShelfCutOf, setup_eq, Lit.lit])
    (by simp [lowShelfCut, lowShelfCutOf, setup_eq, Lit.lit]) (by simp [lowShelfCut, lowShelfCutOf, setup_eq, Lit.lit])
    (by simp [lowShelfCut, lowShelfCutOf, setup_eq, Lit.lit]) (one_div_mul_cancel hn) hz
  rw [one_mul, hsq _ (by positivity), Real.sq_sqrt (by positivity)] at h
  rw [show (gain * (warp powi fc sr ^ 2 * (1 + z.re))) ^ 2 + (1 - z.re) ^ 2 = (gain * warp powi fc sr ^ 2 * (1 + z.re) - (1 - z.re)) ^ 2 +
    gain * 2 * warp powi fc sr ^ 2 * ((1 - z.re) * (1 + z.re)) by ring]
  exact h
end

/-- C136 in full: at every frequency and for every `q` the shelf lies between its two gains. -/
def C136_full : Prop :=
  ∀ (powi : ℝ → ℕ → ℝ) (sqrt : ℝ → ℝ) (pos : ℝ → Bool) (fc q gain sr : ℝ), PowiExact powi → SqrtExact sqrt → 0 < fc → 0 < q → 0 < sr → 1 ≤ gain →
    pos gain = true → ∀ z : ℂ, ‖z‖ = 1 →
      1 ≤ ‖(lowShelf powi sqrt fc q gain sr pos).cgain z‖ ∧ ‖(lowShelf powi sqrt fc q gain sr pos).cgain z‖ ≤ gain

/-- C136 is false: at `q = 1` a shelf of gain 2 peaks at `√5` or more. -/
theorem C136_refuted : ¬ C136_full := by
  intro h
  have k0 := demo_warp_pos
  obtain ⟨z, hz, hre, hb⟩ := circle_point (r := warp (fun x n => x ^ n) 1000 48000 ^ 2) (by positivity)
  have hm := lowShelfBoost_magnitude (powi := fun x n => x ^ n) (sqrt := Real.sqrt) (fc := 1000) (q := 1) (gain := 2) (sr := 48000) (fun _ _ => rfl) (fun _ _ => rfl) (by norm_num)
    one_pos (by norm_num) (by norm_num) hz
  have := (h (fun x n => x ^ n) Real.sqrt (fun _ => true) 1000 1 2 48000 (fun _ _ => rfl) (fun _ _ => rfl) (by norm_num) one_pos (by norm_num) (by norm_num) rfl
    z hz).2
  simp only [lowShelf, if_true] at this
  have h2 := pow_le_pow_left₀ (norm_nonneg _) this 2
  rw [hm, hre, div_one] at h2
  generalize warp (fun x n => x ^ n) 1000 48000 = k at *
  generalize 1 + z.re = b at *
  rw [show (k ^ 2 * b - k ^ 2 * b) ^ 2 + k ^ 2 * (k ^ 2 * b * b) = (k ^ 2 * b) ^ 2 by ring, div_le_iff₀ (by positivity)] at h2
  have : 0 < (k ^ 2 * b) ^ 2 := by positivity
  nlinarith

section
variable {powi : ℝ → ℕ → ℝ} {sqrt : ℝ → ℝ} {fc q gain sr : ℝ}

/-- C136, for `q = 1/√2` (missing: other `q`, where it is false): the boost lies between 1 and `gain`, the cut between
`1/gain` and 1. -/
theorem C136_partial (hp : PowiExact powi) (hsq : SqrtExact sqrt) (hfc : 0 < fc) (hq : 0 < q) (hq2 : q ^ 2 = 1 / 2) (hsr : 0 < sr)
    (hg : 1 ≤ gain) {pos : ℝ → Bool} (hpos : pos gain = true) (hneg : pos (-gain) = false) {z : ℂ} (hz : ‖z‖ = 1) :
    1 ≤ ‖(lowShelf powi sqrt fc q gain sr pos).cgain z‖ ∧ ‖(lowShelf powi sqrt fc q gain sr pos).cgain z‖ ≤ gain ∧
    1 / gain ≤ ‖(lowShelf powi sqrt fc q (-gain) sr pos).cgain z‖ ∧ ‖(lowShelf powi sqrt fc q (-gain) sr pos).cgain z‖ ≤ 1 := by
  have g0 : 0 < gain := by linarith
  have e1 := lowShelfBoost_magnitude hp hsq hfc hq hsr g0.le hz
  obtain ⟨p2, e2⟩ := lowShelfCut_magnitude hp hsq hfc hq hsr g0 hz
  obtain ⟨p1, -⟩ := notch_magnitude hp hfc hq hsr hz
  simp only [lowShelf, hpos, hneg, if_true, Bool.false_eq_true, if_false]
  have ek : (warp powi fc sr ^ 2 * (1 + z.re) - (1 - z.re)) ^ 2 + (warp powi fc sr / q) ^ 2 * ((1 - z.re) * (1 + z.re)) =
    (warp powi fc sr ^ 2 * (1 + z.re)) ^ 2 + (1 - z.re) ^ 2 := by rw [div_pow, hq2]; ring
  rw [ek] at e1 e2 p1
  rw [mul_pow gain] at e1 e2 p2
  have n0 := sq_nonneg (warp powi fc sr ^ 2 * (1 + z.re))
  have m0 := sq_nonneg (1 - z.re)
  generalize (warp powi fc sr ^ 2 * (1 + z.re)) ^ 2 = x at *
  generalize (1 - z.re) ^ 2 = y at *
  have g1 : 1 ≤ gain ^ 2 := one_le_pow₀ hg
  refine ⟨?_, ?_, ?_, ?_⟩
  · refine (sq_le_sq₀ zero_le_one (norm_nonneg _)).1 ?_
    rw [e1, one_pow, le_div_iff₀ p1]; nlinarith
  · refine (sq_le_sq₀ (norm_nonneg _) g0.le).1 ?_
    rw [e1, div_le_iff₀ p1]; nlinarith
  · refine (sq_le_sq₀ (by positivity) (norm_nonneg _)).1 ?_
    rw [e2, one_div_pow, div_le_div_iff₀ (by positivity) p2]; nlinarith
  · refine (sq_le_sq₀ (norm_nonneg _) zero_le_one).1 ?_
    rw [e2, one_pow, div_le_one p2]; nlinarith

/-- C136, exactly: a boosting shelf keeps above 1 at all frequencies if and only if `q ≥ 1/√2`, and below its gain if and
only if `q ≤ 1/√2`. -/
theorem C136_actual (hp : PowiExact powi) (hsq : SqrtExact sqrt) (hfc : 0 < fc) (hq : 0 < q) (hsr : 0 < sr) (hg : 1 ≤ gain)
    {pos : ℝ → Bool} (hpos : pos gain = true) :
    ((∀ z : ℂ, ‖z‖ = 1 → 1 ≤ ‖(lowShelf powi sqrt fc q gain sr pos).cgain z‖) ↔ 1 / 2 ≤ q ^ 2) ∧
    ((∀ z : ℂ, ‖z‖ = 1 → ‖(lowShelf powi sqrt fc q gain sr pos).cgain z‖ ≤ gain) ↔ q ^ 2 ≤ 1 / 2) := by
  have g0 : 0 < gain := by linarith
  have k0 := warp_pos hp hfc hsr
  have g1 : 1 ≤ gain ^ 2 := one_le_pow₀ hg
  simp only [lowShelf, hpos, if_true]
  have hv : ∀ z : ℂ, (warp powi fc sr ^ 2 * (1 + z.re) - (1 - z.re)) ^ 2 + (warp powi fc sr / q) ^ 2 * ((1 - z.re) * (1 + z.re)) =
      (warp powi fc sr ^ 2 * (1 + z.re)) ^ 2 + (1 - z.re) ^ 2 + warp powi fc sr ^ 2 * (1 / q ^ 2 - 2) * ((1 - z.re) * (1 + z.re)) := fun z => by
    rw [div_pow]; ring
  refine ⟨⟨fun h => ?_, fun h z hz => ?_⟩, fun h => ?_, fun h z hz => ?_⟩
  · by_contra hlt
    have d0 : 0 < 1 / q ^ 2 - 2 := by
      rw [sub_pos, lt_div_iff₀ (by positivity)]; linarith
    obtain ⟨z, hz, hre, hb⟩ := circle_point (r := ((gain ^ 2 - 1) * warp powi fc sr ^ 2 + 1) / (1 / q ^ 2 - 2))
      (div_nonneg (by nlinarith [sq_nonneg (warp powi fc sr)]) d0.le)
    obtain ⟨p1, -⟩ := notch_magnitude hp hfc hq hsr hz
    have h2 := pow_le_pow_left₀ zero_le_one (h z hz) 2
    rw [lowShelfBoost_magnitude hp hsq hfc hq hsr g0.le hz, one_pow, le_div_iff₀ p1, hv, hre] at h2
    have e : (1 / q ^ 2 - 2) * (((gain ^ 2 - 1) * warp powi fc sr ^ 2 + 1) / (1 / q ^ 2 - 2) * (1 + z.re) * (1 + z.re)) =
        ((gain ^ 2 - 1) * warp powi fc sr ^ 2 + 1) * (1 + z.re) ^ 2 := by
      generalize 1 / q ^ 2 - 2 = d at d0
      have := d0.ne'
      field_simp
    rw [mul_assoc (warp powi fc sr ^ 2), e] at h2
    have : 0 < (warp powi fc sr ^ 2 * (1 + z.re) ^ 2) := by positivity
    nlinarith
  · obtain ⟨p1, -⟩ := notch_magnitude hp hfc hq hsr hz
    obtain ⟨u1, v1⟩ := re_range hz
    have d0 : 1 / q ^ 2 - 2 ≤ 0 := by
      rw [sub_nonpos, div_le_iff₀ (by positivity)]; linarith
    refine (sq_le_sq₀ zero_le_one (norm_nonneg _)).1 ?_
    rw [lowShelfBoost_magnitude hp hsq hfc hq hsr g0.le hz, one_pow, le_div_iff₀ p1, hv]
    have m := mul_nonneg (mul_nonneg (sq_nonneg (warp powi fc sr)) (neg_nonneg.2 d0)) (mul_nonneg u1 v1)
    have := mul_nonneg (sub_nonneg.2 g1) (sq_nonneg (warp powi fc sr ^ 2 * (1 + z.re)))
    nlinarith
  · by_contra hlt
    have d0 : 0 < 2 - 1 / q ^ 2 := by
      rw [sub_pos, div_lt_iff₀ (by positivity)]; linarith
    obtain ⟨z, hz, hre, hb⟩ := circle_point (r := warp powi fc sr ^ 2 * (2 - 1 / q ^ 2)) (by positivity)
    obtain ⟨p1, -⟩ := notch_magnitude hp hfc hq hsr hz
    have h2 := pow_le_pow_left₀ (norm_nonneg _) (h z hz) 2
    rw [lowShelfBoost_magnitude hp hsq hfc hq hsr g0.le hz, div_le_iff₀ p1, hv, hre] at h2
    have : 0 < (warp powi fc sr ^ 2 * (2 - 1 / q ^ 2) * (1 + z.re)) ^ 2 := by positivity
    nlinarith
  · obtain ⟨p1, -⟩ := notch_magnitude hp hfc hq hsr hz
    obtain ⟨u1, v1⟩ := re_range hz
    have d0 : 0 ≤ 1 / q ^ 2 - 2 := by
      rw [sub_nonneg, le_div_iff₀ (by positivity)]; linarith
    refine (sq_le_sq₀ (norm_nonneg _) g0.le).1 ?_
    rw [lowShelfBoost_magnitude hp hsq hfc hq hsr g0.le hz, div_le_iff₀ p1, hv]
    have m := mul_nonneg (mul_nonneg (mul_nonneg (sq_nonneg gain) (sq_nonneg (warp powi fc sr))) d0) (mul_nonneg u1 v1)
    have := mul_nonneg (sub_nonneg.2 g1) (sq_nonneg (1 - z.re))
    nlinarith

/-- C136: there it goes from one gain to the other steadily. -/
theorem C136_monotone_partial (hp : PowiExact powi) (hsq : SqrtExact sqrt) (hfc : 0 < fc) (hq : 0 < q) (hq2 : q ^ 2 = 1 / 2) (hsr : 0 < sr)
    (hg : 1 ≤ gain) {pos : ℝ → Bool} (hpos : pos gain = true) (hneg : pos (-gain) = false) {z w : ℂ} (hz : ‖z‖ = 1) (hw : ‖w‖ = 1)
    (h : z.re ≤ w.re) :
    ‖(lowShelf powi sqrt fc q gain sr pos).cgain z‖ ≤ ‖(lowShelf powi sqrt fc q gain sr pos).cgain w‖ ∧
    ‖(lowShelf powi sqrt fc q (-gain) sr pos).cgain w‖ ≤ ‖(lowShelf powi sqrt fc q (-gain) sr pos).cgain z‖ := by
  have g0 : 0 < gain := by linarith
  have e1 := lowShelfBoost_magnitude hp hsq hfc hq hsr g0.le hz
  have f1 := lowShelfBoost_magnitude hp hsq hfc hq hsr g0.le hw
  obtain ⟨p2, e2⟩ := lowShelfCut_magnitude hp hsq hfc hq hsr g0 hz
  obtain ⟨r2, f2⟩ := lowShelfCut_magnitude hp hsq hfc hq hsr g0 hw
  obtain ⟨p1, -⟩ := notch_magnitude hp hfc hq hsr hz
  obtain ⟨r1, -⟩ := notch_magnitude hp hfc hq hsr hw
  obtain ⟨u1, v1⟩ := re_range hz
  obtain ⟨u2, v2⟩ := re_range hw
  simp only [lowShelf, hpos, hneg, if_true, Bool.false_eq_true, if_false]
  have ek : ∀ z : ℂ, (warp powi fc sr ^ 2 * (1 + z.re) - (1 - z.re)) ^ 2 + (warp powi fc sr / q) ^ 2 * ((1 - z.re) * (1 + z.re)) =
    (warp powi fc sr ^ 2 * (1 + z.re)) ^ 2 + (1 - z.re) ^ 2 := fun z => by rw [div_pow, hq2]; ring
  rw [ek] at e1 e2 p1 f1 f2 r1
  have c := pow_le_pow_left₀ (mul_nonneg v1 u2) (cross_le h) 2
  have g1 : 1 ≤ gain ^ 2 := one_le_pow₀ hg
  have m := mul_le_mul_of_nonneg_left c (mul_nonneg (sub_nonneg.2 g1) (sq_nonneg (warp powi fc sr ^ 2)))
  constructor <;> apply norm_le_of_sq
  · rw [e1, f1, div_le_div_iff₀ p1 r1]; linarith
  · rw [e2, f2, div_le_div_iff₀ r2 p2]; linarith
end

example : PowiExact (fun x n => x ^ n) ∧ (0:ℝ) < 1000 ∧ (0:ℝ) < 48000 ∧ (7/10 : ℝ) ^ 2 ≤ 1 / 2 ∧ 1 / 2 ≤ (4 : ℝ) ^ 2 :=
  ⟨fun _ _ => rfl, by norm_num, by norm_num, by norm_num, by norm_num⟩

example : SqrtExact Real.sqrt ∧ (0:ℝ) < Real.sqrt (1 / 2) ∧ Real.sqrt (1 / 2) ^ 2 = 1 / 2 ∧ decide ((0:ℝ) < 2) = true ∧ decide ((0:ℝ) < -2) = false :=
  ⟨fun _ _ => rfl, by positivity, Real.sq_sqrt (by norm_num), by simp, by simp⟩

end Verif
