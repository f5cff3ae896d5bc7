import Mathlib.Analysis.SpecialFunctions.Trigonometric.Arctan
import Verif.Props.DesignResponse

/-! # C182: how the filters turn the phase of a tone -/

namespace Verif
open Butterworth FMath

/-- The lag of the analogue low-pass at `x` times the corner frequency: the angle between 0 and `π` whose cotangent is
`Q (1/x - x)`. -/
noncomputable def lag (Q x : ℝ) : ℝ := Real.pi / 2 - Real.arctan (Q * (1 / x - x))

theorem lag_mem (Q x : ℝ) : lag Q x ∈ Set.Ioo 0 Real.pi := by
  unfold lag
  constructor
  · linarith [Real.arctan_lt_pi_div_two (Q * (1 / x - x))]
  · linarith [Real.neg_pi_div_two_lt_arctan (Q * (1 / x - x))]

theorem lag_corner (Q : ℝ) : lag Q 1 = Real.pi / 2 := by simp [lag]

theorem lag_strict {Q : ℝ} (hQ : 0 < Q) : StrictMonoOn (lag Q) (Set.Ioi 0) := by
  intro x (hx : 0 < x) y (hy : 0 < y) hxy
  have : 1 / y < 1 / x := one_div_lt_one_div_of_lt hx hxy
  unfold lag
  have : Real.arctan (Q * (1 / y - y)) < Real.arctan (Q * (1 / x - x)) :=
    Real.arctan_strictMono (mul_lt_mul_of_pos_left (by linarith) hQ)
  linarith

theorem lag_onto {Q : ℝ} (hQ : 0 < Q) {ψ : ℝ} (h : ψ ∈ Set.Ioo 0 Real.pi) : ∃ x, 0 < x ∧ lag Q x = ψ := by
  obtain ⟨u, hu⟩ : ∃ u, u = Real.tan (Real.pi / 2 - ψ) / Q := ⟨_, rfl⟩
  have s0 : |u| < √(u ^ 2 + 4) := by
    rw [← Real.sqrt_sq_eq_abs]; exact Real.sqrt_lt_sqrt (sq_nonneg _) (by linarith)
  have s2 : √(u ^ 2 + 4) ^ 2 = u ^ 2 + 4 := Real.sq_sqrt (by positivity)
  have x0 : 0 < (√(u ^ 2 + 4) - u) / 2 := by linarith [le_abs_self u]
  refine ⟨(√(u ^ 2 + 4) - u) / 2, x0, ?_⟩
  have e : 1 / ((√(u ^ 2 + 4) - u) / 2) - (√(u ^ 2 + 4) - u) / 2 = u := by
    rw [sub_eq_iff_eq_add, div_eq_iff x0.ne']
    nlinarith
  unfold lag
  rw [e, hu, mul_div_cancel₀ _ hQ.ne', Real.arctan_tan (by linarith [h.2]) (by linarith [h.1])]
  ring

/-- The lag over the frequencies of a digital filter with the corner at `2 arctan k`. -/
theorem lag_warped {Q k : ℝ} (hQ : 0 < Q) (hk : 0 < k) :
    StrictMonoOn (fun θ => lag Q (Real.tan (θ / 2) / k)) (Set.Ioo 0 Real.pi) ∧
    (fun θ => lag Q (Real.tan (θ / 2) / k)) '' Set.Ioo 0 Real.pi = Set.Ioo 0 Real.pi := by
  have tp : ∀ θ ∈ Set.Ioo 0 Real.pi, 0 < Real.tan (θ / 2) / k := fun θ h =>
    div_pos (Real.tan_pos_of_pos_of_lt_pi_div_two (by linarith [h.1]) (by linarith [h.2])) hk
  constructor
  · intro x hx y hy hxy
    refine lag_strict hQ (tp x hx) (tp y hy) ((div_lt_div_iff_of_pos_right hk).2 ?_)
    exact Real.tan_lt_tan_of_lt_of_lt_pi_div_two (by linarith [hx.1, Real.pi_pos]) (by linarith [hy.2]) (by linarith)
  · ext ψ
    constructor
    · rintro ⟨θ, -, rfl⟩; exact lag_mem _ _
    · intro hψ
      obtain ⟨x, x0, hx⟩ := lag_onto hQ hψ
      refine ⟨2 * Real.arctan (x * k), ⟨?_, ?_⟩, ?_⟩
      · have := Real.arctan_pos.2 (mul_pos x0 hk); linarith
      · linarith [Real.arctan_lt_pi_div_two (x * k)]
      · simp only [mul_div_cancel_left₀ _ (two_ne_zero' ℝ), Real.tan_arctan, mul_div_cancel_right₀ _ hk.ne']
        exact hx

theorem tone_lag (Q x : ℝ) : tone (-lag Q x) =
    ((Q * (1 / x - x) : ℝ) - Complex.I) / (√(1 + (Q * (1 / x - x)) ^ 2) : ℝ) ∧
    Real.cos (lag Q x) = Q * (1 / x - x) / √(1 + (Q * (1 / x - x)) ^ 2) := by
  unfold tone lag
  generalize Q * (1 / x - x) = u
  have v : √(1 + u ^ 2) ≠ 0 := (Real.sqrt_pos.2 (by positivity)).ne'
  constructor
  · apply Complex.ext
    · rw [Complex.exp_ofReal_mul_I_re, Real.cos_neg, Real.cos_pi_div_two_sub, Real.sin_arctan]
      simp [Complex.div_ofReal_re]
    · rw [Complex.exp_ofReal_mul_I_im, Real.sin_neg, Real.sin_pi_div_two_sub, Real.cos_arctan]
      simp [Complex.div_ofReal_im]; ring
  · rw [Real.cos_pi_div_two_sub, Real.sin_arctan]

/-- The phase of the analogue sections. -/
theorem analog_phase {Q x : ℝ} (hQ : 0 < Q) (hx : 0 < x) {s : ℂ} (hs : s = Complex.I * x) :
    0 < ‖analogLow Q s‖ ∧ 0 < ‖analogHigh Q s‖ ∧
    analogLow Q s = ‖analogLow Q s‖ * tone (-lag Q x) ∧
    analogHigh Q s = ‖analogHigh Q s‖ * tone (Real.pi - lag Q x) ∧
    analogAll Q s = tone (-(2 * lag Q x)) ∧
    analogNotch Q s = Real.cos (lag Q x) * tone (-lag Q x) := by
  obtain ⟨e, ec⟩ := tone_lag Q x
  have v2 : √(1 + (Q * (1 / x - x)) ^ 2) ^ 2 = 1 + (Q * (1 / x - x)) ^ 2 := Real.sq_sqrt (by positivity)
  have vp : 0 < √(1 + (Q * (1 / x - x)) ^ 2) := Real.sqrt_pos.2 (by positivity)
  have hw : s ^ 2 + s / Q + 1 = (x / Q : ℝ) * ((Q * (1 / x - x) : ℝ) + Complex.I) := by
    have hQ' : (Q : ℂ) ≠ 0 := by exact_mod_cast hQ.ne'
    have hx' : (x : ℂ) ≠ 0 := by exact_mod_cast hx.ne'
    rw [hs, mul_pow, Complex.I_sq]; push_cast; field_simp; ring
  have hw' : s ^ 2 - s / Q + 1 = (x / Q : ℝ) * ((Q * (1 / x - x) : ℝ) - Complex.I) := by
    have hQ' : (Q : ℂ) ≠ 0 := by exact_mod_cast hQ.ne'
    have hx' : (x : ℂ) ≠ 0 := by exact_mod_cast hx.ne'
    rw [hs, mul_pow, Complex.I_sq]; push_cast; field_simp; ring
  have hn : s ^ 2 + 1 = (x / Q : ℝ) * (Q * (1 / x - x) : ℝ) := by
    have hQ' : (Q : ℂ) ≠ 0 := by exact_mod_cast hQ.ne'
    have hx' : (x : ℂ) ≠ 0 := by exact_mod_cast hx.ne'
    rw [hs, mul_pow, Complex.I_sq]; push_cast; field_simp; ring
  have hh : s ^ 2 = -(x : ℂ) ^ 2 := by rw [hs, mul_pow, Complex.I_sq]; ring
  have hc : 0 < x / Q := by positivity
  generalize Q * (1 / x - x) = u at *
  generalize √(1 + u ^ 2) = v at *
  generalize x / Q = b at *
  have hbc : (b : ℂ) ≠ 0 := by exact_mod_cast hc.ne'
  have hvc : (v : ℂ) ≠ 0 := by exact_mod_cast vp.ne'
  have hv2 : (v : ℂ) ^ 2 = 1 + (u : ℂ) ^ 2 := by exact_mod_cast v2
  have hprod : ((u : ℂ) + Complex.I) * (u - Complex.I) = v ^ 2 := by rw [hv2]; linear_combination -Complex.I_sq
  have hu : (u : ℂ) + Complex.I ≠ 0 := by
    intro h; rw [h, zero_mul] at hprod; exact pow_ne_zero 2 hvc hprod.symm
  have el : analogLow Q s = (1 / (b * v) : ℝ) * tone (-lag Q x) := by
    unfold analogLow
    rw [hw, e]; push_cast; field_simp
    linear_combination -hprod
  have etwo : tone (Real.pi - lag Q x) = -tone (-lag Q x) := by
    unfold tone
    rw [show ((Real.pi - lag Q x : ℝ) : ℂ) * Complex.I = Real.pi * Complex.I + (-lag Q x : ℝ) * Complex.I by push_cast; ring,
      Complex.exp_add, Complex.exp_pi_mul_I]; ring
  have edbl : tone (-(2 * lag Q x)) = tone (-lag Q x) ^ 2 := by
    unfold tone
    rw [← Complex.exp_nat_mul]; congr 1; push_cast; ring
  have eh : analogHigh Q s = (x ^ 2 / (b * v) : ℝ) * tone (Real.pi - lag Q x) := by
    unfold analogHigh
    rw [hw, hh, etwo, e]; push_cast; field_simp
    linear_combination x ^ 2 * hprod
  refine ⟨?_, ?_, ?_, ?_, ?_, ?_⟩
  · rw [el, norm_mul, tone_norm, mul_one, Complex.norm_real]; exact norm_pos_iff.2 (by positivity)
  · rw [eh, norm_mul, tone_norm, mul_one, Complex.norm_real]; exact norm_pos_iff.2 (by positivity)
  · nth_rewrite 2 [el]
    rw [norm_mul, tone_norm, mul_one, Complex.norm_real, Real.norm_of_nonneg (by positivity)]; exact el
  · nth_rewrite 2 [eh]
    rw [norm_mul, tone_norm, mul_one, Complex.norm_real, Real.norm_of_nonneg (by positivity)]; exact eh
  · unfold analogAll
    rw [hw, hw', edbl, e]; field_simp
    linear_combination -(u - Complex.I) * hprod
  · unfold analogNotch
    rw [hw, hn, ec, e]; push_cast; field_simp
    linear_combination -u * hprod

/-- The exact designs are the analogue sections at the warped frequency. -/
theorem design_analog {powi : ℝ → ℕ → ℝ} {fc q sr : ℝ} (hp : PowiExact powi) (hfc : 0 < fc) (hsr : 0 < sr) (hq : 0 < q)
    {θ : ℝ} (hθ : θ ∈ Set.Ioo 0 Real.pi) {s : ℂ} (hs : s = Complex.I * (Real.tan (θ / 2) / warp powi fc sr : ℝ)) :
    (lowpass powi fc q sr).cgain (tone θ) = analogLow q s ∧ (highpass powi fc q sr).cgain (tone θ) = analogHigh q s ∧
    (allpass powi fc q sr).cgain (tone θ) = analogAll q s ∧ (notch powi fc q sr).cgain (tone θ) = analogNotch q s := by
  have t0 : 0 < Real.tan (θ / 2) := Real.tan_pos_of_pos_of_lt_pi_div_two (by linarith [hθ.1]) (by linarith [hθ.2])
  have hk := warp_pos hp hfc hsr
  have ha := nondegenerate hq hk
  have hθ2 : θ = 2 * Real.arctan (Real.tan (θ / 2)) := by
    rw [Real.arctan_tan (by linarith [hθ.1, Real.pi_pos]) (by linarith [hθ.2])]; ring
  obtain ⟨hz, hz1⟩ := tone_arctan (Real.tan (θ / 2))
  rw [← hθ2] at hz hz1
  generalize tone θ = z at *
  generalize Real.tan (θ / 2) = t at *
  simp only [lowpass, highpass, allpass, notch, setup_eq, lowpassOf, highpassOf, allpassOf, notchOf, Lit.lit, BiquadCoeffs.cgain,
    BiquadCoeffs.gain, BiquadCoeffs.num, BiquadCoeffs.den, BiquadCoeffs.map, analogLow, analogHigh, analogAll, analogNotch]
  generalize warp powi fc sr = k at *
  have hkc : (k : ℂ) ≠ 0 := by exact_mod_cast hk.ne'
  have hqc : (q : ℂ) ≠ 0 := by exact_mod_cast hq.ne'
  have hac : (1 + (k : ℂ) / q + (k : ℂ) ^ 2) ≠ 0 := by exact_mod_cast ha
  have hks : Complex.I * t = k * s := by rw [hs]; push_cast; field_simp
  rw [hks] at hz
  push_cast
  set N : ℂ := 1 / (1 + (k : ℂ) / q + (k : ℂ) ^ 2) with hN
  have hN1 : N * (1 + (k : ℂ) / q + (k : ℂ) ^ 2) = 1 := one_div_mul_cancel hac
  have hN0 : N ≠ 0 := by rw [hN]; exact one_div_ne_zero hac
  have hM0 : N * k ^ 2 * (z + 1) ^ 2 ≠ 0 := mul_ne_zero (mul_ne_zero hN0 (pow_ne_zero 2 hkc)) (pow_ne_zero 2 hz1)
  have hkq : (k : ℂ) / q * q = k := by field_simp
  have hsq : (z - 1) ^ 2 = k ^ 2 * s ^ 2 * (z + 1) ^ 2 := by rw [hz]; ring
  have hmid : (z - 1) * (z + 1) * (k / q) = k ^ 2 * (s / q) * (z + 1) ^ 2 := by rw [hz]; ring
  have hden : ∀ a1 a2 : ℂ, a1 = N * (2 * (k ^ 2 - 1)) → a2 = N * (1 - k / q + k ^ 2) →
      z ^ 2 + a1 * z + a2 = N * k ^ 2 * (z + 1) ^ 2 * (s ^ 2 + s / q + 1) := by
    rintro _ _ rfl rfl
    linear_combination N * hsq + N * hmid - z ^ 2 * hN1
  refine ⟨?_, ?_, ?_, ?_⟩
  · rw [hden _ _ (by ring) (by ring)]
    refine Eq.trans ?_ (mul_div_mul_left _ _ hM0)
    congr 1; ring
  · rw [hden _ _ (by ring) (by ring)]
    refine Eq.trans ?_ (mul_div_mul_left _ _ hM0)
    congr 1; linear_combination N * hsq
  · rw [hden _ _ (by ring) (by ring)]
    refine Eq.trans ?_ (mul_div_mul_left _ _ hM0)
    congr 1; linear_combination N * hsq - N * hmid - hN1
  · rw [hden _ _ (by ring) (by ring)]
    refine Eq.trans ?_ (mul_div_mul_left _ _ hM0)
    congr 1; linear_combination N * hsq

section
variable {powi : ℝ → ℕ → ℝ} {fc q sr : ℝ}

/-- C182: over the frequencies from zero to Nyquist the low-pass lags by an angle `φ` that grows strictly from 0 to `π` and
takes every value between, the high-pass leads by `π - φ`, the all-pass lags by `2φ` and the notch passes `cos φ` with
lag `φ` (so its phase jumps by `π` at the centre). The lag is `π/2` at the corner, which is where it was asked for up to a
thousandth. -/
theorem C182_phase (hp : PowiExact powi) (hfc : 0 < fc) (hsr : 0 < sr) (hq : 0 < q) :
    ∃ φ : ℝ → ℝ, StrictMonoOn φ (Set.Ioo 0 Real.pi) ∧ φ '' Set.Ioo 0 Real.pi = Set.Ioo 0 Real.pi ∧
      (fc ≤ 318 / 1000 * sr → ∃ θc ∈ Set.Ioo 0 Real.pi, φ θc = Real.pi / 2 ∧
        |θc - 2 * Real.pi * fc / sr| ≤ 1 / 1000 * (2 * Real.pi * fc / sr)) ∧
      ∀ θ ∈ Set.Ioo 0 Real.pi,
        0 < ‖(lowpass powi fc q sr).cgain (tone θ)‖ ∧ 0 < ‖(highpass powi fc q sr).cgain (tone θ)‖ ∧
        (lowpass powi fc q sr).cgain (tone θ) = ‖(lowpass powi fc q sr).cgain (tone θ)‖ * tone (-φ θ) ∧
        (highpass powi fc q sr).cgain (tone θ) = ‖(highpass powi fc q sr).cgain (tone θ)‖ * tone (Real.pi - φ θ) ∧
        (allpass powi fc q sr).cgain (tone θ) = tone (-(2 * φ θ)) ∧
        (notch powi fc q sr).cgain (tone θ) = Real.cos (φ θ) * tone (-φ θ) := by
  have hk := warp_pos hp hfc hsr
  have tp : ∀ θ ∈ Set.Ioo 0 Real.pi, 0 < Real.tan (θ / 2) / warp powi fc sr := fun θ h =>
    div_pos (Real.tan_pos_of_pos_of_lt_pi_div_two (by linarith [h.1]) (by linarith [h.2])) hk
  have main : ∀ θ ∈ Set.Ioo 0 Real.pi,
      0 < ‖(lowpass powi fc q sr).cgain (tone θ)‖ ∧ 0 < ‖(highpass powi fc q sr).cgain (tone θ)‖ ∧
      (lowpass powi fc q sr).cgain (tone θ) = ‖(lowpass powi fc q sr).cgain (tone θ)‖ * tone (-lag q (Real.tan (θ / 2) / warp powi fc sr)) ∧
      (highpass powi fc q sr).cgain (tone θ) =
        ‖(highpass powi fc q sr).cgain (tone θ)‖ * tone (Real.pi - lag q (Real.tan (θ / 2) / warp powi fc sr)) ∧
      (allpass powi fc q sr).cgain (tone θ) = tone (-(2 * lag q (Real.tan (θ / 2) / warp powi fc sr))) ∧
      (notch powi fc q sr).cgain (tone θ) =
        Real.cos (lag q (Real.tan (θ / 2) / warp powi fc sr)) * tone (-lag q (Real.tan (θ / 2) / warp powi fc sr)) := by
    intro θ h
    obtain ⟨e1, e2, e3, e4⟩ := design_analog (powi := powi) hp hfc hsr hq h rfl
    rw [e1, e2, e3, e4]
    exact analog_phase hq (tp θ h) rfl
  refine ⟨fun θ => lag q (Real.tan (θ / 2) / warp powi fc sr), (lag_warped hq hk).1, (lag_warped hq hk).2, fun hlim => ?_, main⟩
  · obtain ⟨θ, h, -, -, h3, -⟩ := C107_cutoff (gain := 1) hp hfc hsr hq hlim
    have hu : 2 * Real.pi * fc / sr = 2 * Real.pi * (fc / sr) := by ring
    have u1 : fc / sr ≤ 318 / 1000 := by rw [div_le_iff₀ hsr]; exact hlim
    have u0 : 0 < fc / sr := by positivity
    have hpi := Real.pi_pos
    have p0 : 0 < Real.pi * (fc / sr) := by positivity
    have p1 : Real.pi * (fc / sr) ≤ Real.pi * (318 / 1000) := by gcongr
    have hθ : θ ∈ Set.Ioo 0 Real.pi := by
      rw [hu, abs_le] at h
      constructor
      · linarith [h.1]
      · linarith [h.2]
    refine ⟨θ, hθ, ?_, h⟩
    have e := (main θ hθ).2.2.2.2.1
    rw [h3] at e
    have m := lag_mem q (Real.tan (θ / 2) / warp powi fc sr)
    simp only
    generalize lag q (Real.tan (θ / 2) / warp powi fc sr) = φ at *
    have hr := congrArg Complex.re e
    rw [tone, Complex.exp_ofReal_mul_I_re, Real.cos_neg, Real.cos_two_mul] at hr
    simp only [Complex.neg_re, Complex.one_re] at hr
    have : Real.cos φ = Real.cos (Real.pi / 2) := by
      rw [Real.cos_pi_div_two]; exact pow_eq_zero_iff (two_ne_zero) |>.1 (by linarith)
    exact Real.injOn_cos ⟨m.1.le, m.2.le⟩ ⟨by linarith, by linarith⟩ this

/-- C182, heard: a cosine through the low-pass comes out late by `φ`, through the high-pass early by `π - φ`, through the
all-pass late by `2φ` at full strength. -/
theorem C182_sinusoid (hp : PowiExact powi) (hfc : 0 < fc) (hsr : 0 < sr) (hq : 0 < q) :
    ∃ φ : ℝ → ℝ, StrictMonoOn φ (Set.Ioo 0 Real.pi) ∧ φ '' Set.Ioo 0 Real.pi = Set.Ioo 0 Real.pi ∧
      ∀ θ ∈ Set.Ioo 0 Real.pi, ∃ A B : ℝ, 0 < A ∧ 0 < B ∧ ∀ z1 z2 : ℝ,
        Filter.Tendsto (fun n : ℕ => Biquad.outAt ⟨z1, z2, lowpass powi fc q sr⟩ (fun m : ℕ => Real.cos (θ * m)) n -
          A * Real.cos (θ * n - φ θ)) Filter.atTop (nhds 0) ∧
        Filter.Tendsto (fun n : ℕ => Biquad.outAt ⟨z1, z2, highpass powi fc q sr⟩ (fun m : ℕ => Real.cos (θ * m)) n -
          B * Real.cos (θ * n + (Real.pi - φ θ))) Filter.atTop (nhds 0) ∧
        Filter.Tendsto (fun n : ℕ => Biquad.outAt ⟨z1, z2, allpass powi fc q sr⟩ (fun m : ℕ => Real.cos (θ * m)) n -
          Real.cos (θ * n - 2 * φ θ)) Filter.atTop (nhds 0) := by
  obtain ⟨φ, h1, h2, -, h⟩ := C182_phase (powi := powi) hp hfc hsr hq
  obtain ⟨s1, s2, s3, -⟩ := C35_stable (sqrt := fun x => x) (gain := 1) hp hfc hq hsr
  refine ⟨φ, h1, h2, fun θ hθ => ?_⟩
  obtain ⟨A0, B0, e1, e2, e3, -⟩ := h θ hθ
  have key : ∀ {co : BiquadCoeffs ℝ} (hs : co.Stable) {r a : ℝ} (_ : co.cgain (tone θ) = r * tone a) (z1 z2 : ℝ),
      Filter.Tendsto (fun n : ℕ => Biquad.outAt ⟨z1, z2, co⟩ (fun m : ℕ => Real.cos (θ * m)) n - r * Real.cos (θ * n + a))
        Filter.atTop (nhds 0) := by
    intro co hs r a e z1 z2
    refine (C108_sinusoid hs θ z1 z2).congr (fun n => ?_)
    congr 1
    have a1 : ‖co.cgain (tone θ)‖ * Real.cos (θ * n + (co.cgain (tone θ)).arg) = (tone (θ * n) * co.cgain (tone θ)).re := by
      nth_rewrite 3 [← Complex.norm_mul_exp_arg_mul_I (co.cgain (tone θ))]
      unfold tone
      rw [mul_left_comm, ← Complex.exp_add, ← add_mul, ← Complex.ofReal_add, Complex.re_ofReal_mul, Complex.exp_ofReal_mul_I_re]
    rw [a1, e]
    unfold tone
    rw [mul_left_comm, ← Complex.exp_add, ← add_mul, ← Complex.ofReal_add, Complex.re_ofReal_mul, Complex.exp_ofReal_mul_I_re]
  refine ⟨_, _, A0, B0, fun z1 z2 => ⟨?_, key s2 e2 z1 z2, ?_⟩⟩
  · simpa only [← sub_eq_add_neg] using key s1 e1 z1 z2
  · have := key s3 (r := 1) (by rw [Complex.ofReal_one, one_mul]; exact e3) z1 z2
    simpa only [← sub_eq_add_neg, one_mul] using this

end

/-- C182 in floats: the low-pass, high-pass, all-pass and notch computed in floats turn the phase in the same way, up to the
relative errors of C162: each gain is within that of one with exactly this phase. -/
theorem C182_float {powi : F32 → ℕ → F32} (hp : PowiNear powi) {fc q sr : F32} (s0 : 1 ≤ sr.val) (s1 : sr.val ≤ 2 ^ 30)
    {r : ℝ} (hr : r = ((fc.val / sr.val : ℚ) : ℝ)) (r0 : 1 / 600 ≤ r) (r1 : r ≤ 318 / 1000) (q0 : 3 / 5 ≤ q.val) (q1 : q.val ≤ 2) :
    ∃ φ : ℝ → ℝ, StrictMonoOn φ (Set.Ioo 0 Real.pi) ∧ φ '' Set.Ioo 0 Real.pi = Set.Ioo 0 Real.pi ∧
      (∃ θc ∈ Set.Ioo 0 Real.pi, φ θc = Real.pi / 2 ∧ |θc - 2 * Real.pi * r| ≤ 11 / 10000 * (2 * Real.pi * r)) ∧
      ∀ θ ∈ Set.Ioo 0 Real.pi,
        (∃ A : ℝ, 0 < A ∧ ‖(lowpass powi fc q sr).real.cgain (tone θ) - A * tone (-φ θ)‖ ≤ (3 / r ^ 2 + 200) / 2 ^ 24 * A) ∧
        (∃ A : ℝ, 0 < A ∧ ‖(highpass powi fc q sr).real.cgain (tone θ) - A * tone (Real.pi - φ θ)‖ ≤ (3 / r ^ 2 + 200) / 2 ^ 24 * A) ∧
        ‖(allpass powi fc q sr).real.cgain (tone θ) - tone (-(2 * φ θ))‖ ≤ (8 / r ^ 2 + 400) / 2 ^ 24 ∧
        ‖(notch powi fc q sr).real.cgain (tone θ) - Real.cos (φ θ) * tone (-φ θ)‖ ≤ (8 / r ^ 2 + 400) / 2 ^ 24 := by
  obtain ⟨θc, Q, h1, h2, h⟩ := C162_response hp s0 s1 hr r0 r1 q0 q1
  have rp : 0 < r := by linarith
  have q0' : (3 / 5 : ℝ) ≤ q.val := by have := (Rat.cast_le (K := ℝ)).2 q0; push_cast at this; exact this
  have Q0 : 0 < Q := by
    have := (abs_le.1 h2).1
    norm_num at this; linarith
  have hpi := Real.pi_pos
  have pr : 0 < Real.pi * r := by positivity
  have pr1 : Real.pi * r ≤ Real.pi * (318 / 1000) := by gcongr
  have hθc : θc ∈ Set.Ioo 0 Real.pi := by
    have := abs_le.1 h1
    constructor
    · linarith [this.1]
    · linarith [this.2]
  have hk : 0 < Real.tan (θc / 2) := Real.tan_pos_of_pos_of_lt_pi_div_two (by linarith [hθc.1]) (by linarith [hθc.2])
  obtain ⟨m1, m2⟩ := lag_warped Q0 hk
  refine ⟨_, m1, m2, ⟨θc, hθc, by simp only [div_self hk.ne', lag_corner], h1⟩, fun θ hθ => ?_⟩
  obtain ⟨g1, g2, g3, g4, -⟩ := h θ _ (by rw [abs_of_pos hθ.1]; exact hθ.2) rfl
  have x0 : 0 < Real.tan (θ / 2) / Real.tan (θc / 2) :=
    div_pos (Real.tan_pos_of_pos_of_lt_pi_div_two (by linarith [hθ.1]) (by linarith [hθ.2])) hk
  obtain ⟨A0, B0, e1, e2, e3, e4⟩ := analog_phase Q0 x0 rfl
  rw [e3] at g3
  rw [e4] at g4
  exact ⟨⟨_, A0, by rw [← e1]; exact g1⟩, ⟨_, B0, by rw [← e2]; exact g2⟩, g3, g4⟩

/-- 1 kHz at 48 kHz is in range; the lag is a quarter turn at the corner and three eighths of a turn where `x - 1/x = 1/Q`. -/
example : PowiExact (fun x n => x ^ n) ∧ (1000:ℝ) ≤ 318 / 1000 * 48000 ∧ lag 2 1 = Real.pi / 2 ∧
    lag (2 / 3) 2 = 3 * Real.pi / 4 := by
  refine ⟨fun _ _ => rfl, by norm_num, lag_corner 2, ?_⟩
  unfold lag
  rw [show (2 / 3 : ℝ) * (1 / 2 - 2) = -1 by norm_num, Real.arctan_neg, Real.arctan_one]; ring

end Verif
