import Verif.Props.Cutoff

/-! # C196: cutoffs up to half the sample rate

`setup_coeffs` warps the cutoff with `fast_tan`, whose polynomial stays finite where the tangent grows without bound. So the higher the
cutoff the further the filters act below it, and nothing above 0.47 of the sample rate can be reached with a cutoff below half of it. -/

namespace Verif
open Butterworth FMath

/-- How far the polynomial is from solving `y' = 1 + y^2`. -/
theorem tanPoly_sub_le_high (x : ℝ) : (1 + tanPoly x ^ 2 - tanPoly' x) * (1 + x ^ 2 / 2) ^ 2 ≤
    6 / 10000 * x ^ 16 * (17 + 15 / 2 * x ^ 2) * (1 + tanPoly x ^ 2) := by
  have e : 6 / 10000 * x ^ 16 * (17 + 15 / 2 * x ^ 2) * (1 + tanPoly x ^ 2) - (1 + tanPoly x ^ 2 - tanPoly' x) * (1 + x ^ 2 / 2) ^ 2 =
      (x ^ 8) ^ 2 * (4329973/25540515000 + 12254461/9382230000 * (x ^ 1) ^ 2 + 653638781/153243090000 * (x ^ 2) ^ 2 + 591527826793/132746826712500 * (x
      ^ 3) ^ 2 + 4614098117723/1592961920550000 * (x ^ 4) ^ 2 + 7605217294903/4706478401625000 * (x ^ 5) ^ 2 +
      129537747147241/155313787253625000 * (x ^ 6) ^ 2 + 103022589923521/250891502486625000 * (x ^ 7) ^ 2 +
      6387671561183137/32615895323261250000 * (x ^ 8) ^ 2 + 1286923723852061/16307947661630625000 * (x ^ 9) ^ 2 +
      1293187121/47888465625000 * (x ^ 10) ^ 2 + 393259387/42547059843750 * (x ^ 11) ^ 2 + 2076975091/677279728125000 * (x ^ 12) ^ 2 +
      347992767751/359522655679687500 * (x ^ 13) ^ 2 + 908839796027/3235703901117187500 * (x ^ 14) ^ 2 +
      46670845684637/679497819234609375000 * (x ^ 15) ^ 2 + 864098525761/90599709231281250000 * (x ^ 16) ^ 2) := by
    unfold tanPoly tanPoly'; ring
  have : 0 ≤ 6 / 10000 * x ^ 16 * (17 + 15 / 2 * x ^ 2) * (1 + tanPoly x ^ 2) -
      (1 + tanPoly x ^ 2 - tanPoly' x) * (1 + x ^ 2 / 2) ^ 2 := by rw [e]; positivity
  linarith

/-- The arctangent of the polynomial falls short of its argument by this much at most. -/
theorem arctan_tanPoly_ge_high {x : ℝ} (h0 : 0 ≤ x) : x - 6 / 10000 * x ^ 17 / (1 + x ^ 2 / 2) ≤ Real.arctan (tanPoly x) := by
  have hd : ∀ y : ℝ, HasDerivAt (fun y => Real.arctan (tanPoly y) - (y - 6 / 10000 * y ^ 17 / (1 + y ^ 2 / 2)))
      (1 / (1 + tanPoly y ^ 2) * tanPoly' y - (1 - 6 / 10000 * y ^ 16 * (17 + 15 / 2 * y ^ 2) / (1 + y ^ 2 / 2) ^ 2)) y := by
    intro y
    refine (tanPoly_hasDeriv y).arctan.sub ((hasDerivAt_id y).sub ?_)
    have n : HasDerivAt (fun y : ℝ => 6 / 10000 * y ^ 17) (6 / 10000 * (17 * y ^ 16)) y := by
      simpa using (hasDerivAt_pow 17 y).const_mul (6 / 10000 : ℝ)
    have d : HasDerivAt (fun y : ℝ => 1 + y ^ 2 / 2) (2 * y / 2) y := by
      simpa using ((hasDerivAt_pow 2 y).div_const 2).const_add 1
    refine (n.div d (by positivity)).congr_deriv ?_
    congr 1; ring
  have hm : Monotone (fun y => Real.arctan (tanPoly y) - (y - 6 / 10000 * y ^ 17 / (1 + y ^ 2 / 2))) := by
    refine monotone_of_deriv_nonneg (fun y => (hd y).differentiableAt) fun y => ?_
    rw [(hd y).deriv]
    have hq : (0:ℝ) < 1 + tanPoly y ^ 2 := by positivity
    have hr : (0:ℝ) < (1 + y ^ 2 / 2) ^ 2 := by positivity
    have h3 : 1 / (1 + tanPoly y ^ 2) * tanPoly' y = 1 - (1 + tanPoly y ^ 2 - tanPoly' y) / (1 + tanPoly y ^ 2) := by
      field_simp; ring
    have h4 : (1 + tanPoly y ^ 2 - tanPoly' y) / (1 + tanPoly y ^ 2) ≤
        6 / 10000 * y ^ 16 * (17 + 15 / 2 * y ^ 2) / (1 + y ^ 2 / 2) ^ 2 := by
      rw [div_le_div_iff₀ hq hr]; exact tanPoly_sub_le_high y
    linarith
  have hz : tanPoly 0 = 0 := by unfold tanPoly; norm_num
  have := hm h0
  simp only [hz, Real.arctan_zero] at this
  norm_num at this
  linarith

section
variable {powi : ℝ → ℕ → ℝ} {fc q gain sr : ℝ}

/-- The angle per sample at which the designs act. -/
noncomputable def actsAt (powi : ℝ → ℕ → ℝ) (fc sr : ℝ) : ℝ := 2 * Real.arctan (warp powi fc sr)

theorem warp_poly (hp : PowiExact powi) : warp powi fc sr = tanPoly ((piQ : ℚ) * fc / sr) := by
  unfold warp; rw [fastTan_eq hp]; rfl

/-- C196: for every cutoff at all there is one angle, `actsAt`, at which low-pass and high-pass have gain `q` (at ∓90°), the all-pass
turns by 180°, the notch blocks and the bell has its gain. -/
theorem C196_acts (hp : PowiExact powi) (hfc : 0 < fc) (hsr : 0 < sr) (hq : 0 < q) :
    (lowpass powi fc q sr).cgain (tone (actsAt powi fc sr)) = -Complex.I * q ∧
    (highpass powi fc q sr).cgain (tone (actsAt powi fc sr)) = Complex.I * q ∧
    (allpass powi fc q sr).cgain (tone (actsAt powi fc sr)) = -1 ∧
    (notch powi fc q sr).cgain (tone (actsAt powi fc sr)) = 0 ∧
    ∀ pos : ℝ → Bool, pos gain = true → (bell powi fc q gain sr pos).cgain (tone (actsAt powi fc sr)) = gain := by
  have hk := warp_pos hp hfc hsr
  unfold actsAt
  obtain ⟨hz, hz1⟩ := tone_arctan (warp powi fc sr)
  have ha := nondegenerate hq hk
  generalize tone (2 * Real.arctan (warp powi fc sr)) = z at hz hz1
  simp only [lowpass, highpass, allpass, notch, bell, bellBoost, setup_eq, lowpassOf, highpassOf, allpassOf, notchOf, bellBoostOf,
    Lit.lit, BiquadCoeffs.cgain, BiquadCoeffs.gain, BiquadCoeffs.num, BiquadCoeffs.den, BiquadCoeffs.map]
  generalize warp powi fc sr = k at *
  have hkc : (k : ℂ) ≠ 0 := by exact_mod_cast hk.ne'
  have hqc : (q : ℂ) ≠ 0 := by exact_mod_cast hq.ne'
  have hac : (1 + (k : ℂ) / q + (k : ℂ) ^ 2) ≠ 0 := by exact_mod_cast ha
  have hI := Complex.I_sq
  have hz2 : z ^ 2 = 1 + Complex.I * k * (z + 1) ^ 2 := by linear_combination (z + 1) * hz
  have hc : ((1:ℂ) + k ^ 2) * (z ^ 2 + 1) + 2 * (k ^ 2 - 1) * z = 0 := by
    linear_combination (z - 1 + Complex.I * k * (z + 1)) * hz + k ^ 2 * (z + 1) ^ 2 * hI
  push_cast
  set N : ℂ := 1 / (1 + (k : ℂ) / q + (k : ℂ) ^ 2) with hN
  have hN1 : N * (1 + (k : ℂ) / q + (k : ℂ) ^ 2) = 1 := one_div_mul_cancel hac
  have hN0 : N ≠ 0 := by rw [hN]; exact one_div_ne_zero hac
  have hD0 : N * ((k : ℂ) / q) * (Complex.I * k * (z + 1) ^ 2) ≠ 0 := by
    refine mul_ne_zero (mul_ne_zero hN0 (div_ne_zero hkc hqc)) (mul_ne_zero (mul_ne_zero Complex.I_ne_zero hkc) (pow_ne_zero 2 hz1))
  have hden : ∀ a1 a2 : ℂ, a1 = N * (2 * (k ^ 2 - 1)) → a2 = N * (1 - k / q + k ^ 2) →
      z ^ 2 + a1 * z + a2 = N * ((k : ℂ) / q) * (Complex.I * k * (z + 1) ^ 2) := by
    rintro _ _ rfl rfl
    linear_combination N * hc - z ^ 2 * hN1 + N * (k / q) * hz2
  have hkq : (k : ℂ) / q * q = k := by field_simp
  refine ⟨?_, ?_, ?_, ?_, fun pos hpos => ?_⟩
  · rw [hden _ _ (by ring) (by ring), div_eq_iff hD0]
    linear_combination N * k * Complex.I ^ 2 * (z + 1) ^ 2 * hkq + N * k ^ 2 * (z + 1) ^ 2 * hI
  · rw [hden _ _ (by ring) (by ring), div_eq_iff hD0]
    linear_combination N * (z - 1 + Complex.I * k * (z + 1)) * hz - N * k * Complex.I ^ 2 * (z + 1) ^ 2 * hkq
  · rw [hden _ _ (by ring) (by ring), div_eq_iff hD0]
    linear_combination N * hc - hN1 - N * (k / q) * hz2
  · rw [div_eq_zero_iff]; left
    linear_combination N * hc
  · simp only [hpos, if_true]
    rw [hden _ _ (by push_cast; ring) (by push_cast; ring), div_eq_iff hD0]
    push_cast
    linear_combination N * hc + N * gain * (k / q) * hz2

/-- The notch blocks no other angle between 0 and half a turn. -/
theorem C196_only (hp : PowiExact powi) (hfc : 0 < fc) (hsr : 0 < sr) (hq : 0 < q) {θ : ℝ}
    (h : (notch powi fc q sr).cgain (tone θ) = 0) : Real.cos θ = Real.cos (actsAt powi fc sr) := by
  have hk := warp_pos hp hfc hsr
  have st := (C35_stable (gain := 1) (sqrt := id) hp hfc hq hsr).2.2.2.1
  have hd : ((notch powi fc q sr).map (fun r : ℝ => (r : ℂ))).den (tone θ) ≠ 0 := fun h0 => by
    have := st _ h0; rw [tone_norm] at this; exact lt_irrefl _ this
  rw [BiquadCoeffs.cgain, BiquadCoeffs.gain, div_eq_zero_iff, or_iff_left hd] at h
  have ha := nondegenerate hq hk
  have hcos : Real.cos (actsAt powi fc sr) = (1 - warp powi fc sr ^ 2) / (1 + warp powi fc sr ^ 2) := by
    rw [actsAt, Real.cos_two_mul, Real.cos_sq_arctan]
    have : (1 + warp powi fc sr ^ 2 : ℝ) ≠ 0 := by positivity
    field_simp; ring
  rw [hcos]
  simp only [notch, setup_eq, notchOf, Lit.lit, BiquadCoeffs.num, BiquadCoeffs.map] at h
  generalize warp powi fc sr = k at *
  push_cast at h
  have hac : (1 + (k : ℂ) / q + (k : ℂ) ^ 2) ≠ 0 := by exact_mod_cast ha
  have h2 : ((1:ℂ) + k ^ 2) * (tone θ ^ 2 + 1) + 2 * (k ^ 2 - 1) * tone θ = 0 := by
    have hN0 : (1:ℂ) / (1 + (k : ℂ) / q + (k : ℂ) ^ 2) ≠ 0 := one_div_ne_zero hac
    refine (mul_eq_zero.1 ?_).resolve_left hN0
    linear_combination h
  have hz : tone θ ≠ 0 := fun h0 => by have := tone_norm θ; rw [h0, norm_zero] at this; norm_num at this
  -- times the conjugate
  have hconj : tone θ * tone (-θ) = 1 := by unfold tone; rw [← Complex.exp_add]; push_cast; simp
  have h3 : ((1:ℂ) + k ^ 2) * (tone θ + tone (-θ)) + 2 * (k ^ 2 - 1) = 0 := by
    refine (mul_eq_zero.1 (?_ : tone θ * _ = 0)).resolve_left hz
    linear_combination h2 + (1 + (k:ℂ) ^ 2) * hconj
  have h4 : tone θ + tone (-θ) = ((2 * Real.cos θ : ℝ) : ℂ) := by
    unfold tone
    push_cast
    rw [Complex.two_cos, neg_mul]
  rw [h4] at h3
  have h5 : (1 + k ^ 2) * (2 * Real.cos θ) + 2 * (k ^ 2 - 1) = 0 := by exact_mod_cast h3
  have hk2 : (1 + k ^ 2 : ℝ) ≠ 0 := by positivity
  rw [eq_div_iff hk2]; linarith

/-- C196: the filters never act above the cutoff asked for (the last factor is the rounding of pi), and a higher cutoff acts higher. -/
theorem C196_below (hp : PowiExact powi) (hfc : 0 < fc) (hsr : 0 < sr) :
    0 < actsAt powi fc sr ∧ actsAt powi fc sr ≤ 2 * Real.pi * fc / sr * (1 + 1 / 10 ^ 18) ∧
    ∀ fc', fc < fc' → actsAt powi fc sr < actsAt powi fc' sr := by
  have hk := warp_pos hp hfc hsr
  obtain ⟨p1, p2⟩ := abs_le.1 pi_lit
  have hpi := Real.pi_gt_three
  have hpq : (3:ℝ) ≤ (piQ : ℚ) := by unfold piQ; push_cast; norm_num
  have hu : 0 < fc / sr := by positivity
  refine ⟨by unfold actsAt; have := Real.arctan_pos.2 hk; linarith, ?_, fun fc' h => ?_⟩
  · unfold actsAt
    rw [warp_poly hp]
    have h := arctan_tanPoly_le (x := (piQ : ℚ) * fc / sr) (by positivity)
    have h2 : ((piQ : ℚ) : ℝ) * fc / sr ≤ Real.pi * fc / sr * (1 + 1 / 10 ^ 18) := by
      have : ((piQ : ℚ) : ℝ) ≤ Real.pi * (1 + 1 / 10 ^ 18) := by norm_num at p2 ⊢; linarith
      have := mul_le_mul_of_nonneg_right this hu.le
      calc ((piQ : ℚ) : ℝ) * fc / sr = (piQ : ℚ) * (fc / sr) := by ring
        _ ≤ _ := this
        _ = _ := by ring
    calc 2 * Real.arctan (tanPoly ((piQ : ℚ) * fc / sr)) ≤ 2 * (Real.pi * fc / sr * (1 + 1 / 10 ^ 18)) := by linarith
      _ = _ := by ring
  · unfold actsAt
    rw [warp_poly hp, warp_poly hp]
    have : ((piQ : ℚ) : ℝ) * fc / sr < (piQ : ℚ) * fc' / sr :=
      div_lt_div_of_pos_right (mul_lt_mul_of_pos_left h (by linarith)) hsr
    have := Real.arctan_strictMono (tanPoly_strictMono this)
    linarith

/-- C196: up to 0.4 of the sample rate they act at most 1.3 percent below it. -/
theorem C196_near (hp : PowiExact powi) (hfc : 0 < fc) (hsr : 0 < sr) (hlim : fc ≤ 4 / 10 * sr) :
    |actsAt powi fc sr - 2 * Real.pi * fc / sr| ≤ 13 / 1000 * (2 * Real.pi * fc / sr) := by
  have hu : 0 < fc / sr := by positivity
  have hu1 : fc / sr ≤ 4 / 10 := by rw [div_le_iff₀ hsr]; exact hlim
  obtain ⟨p1, p2⟩ := abs_le.1 pi_lit
  have hpi := Real.pi_gt_three
  have hpq : (3:ℝ) ≤ (piQ : ℚ) := by unfold piQ; push_cast; norm_num
  have hpq2 : ((piQ : ℚ) : ℝ) ≤ 3.1416 := by unfold piQ; push_cast; norm_num
  have up := (C196_below hp hfc hsr).2.1
  unfold actsAt at up ⊢
  rw [warp_poly hp] at up ⊢
  rw [show 2 * Real.pi * fc / sr = 2 * (Real.pi * (fc / sr)) by ring] at up ⊢
  rw [show ((piQ : ℚ) : ℝ) * fc / sr = (piQ : ℚ) * (fc / sr) by ring] at up ⊢
  generalize fc / sr = u at *
  have x0 : 0 ≤ ((piQ : ℚ) : ℝ) * u := by positivity
  have x1 : ((piQ : ℚ) : ℝ) * u ≤ 3.1416 * (4 / 10) := mul_le_mul hpq2 hu1 hu.le (by norm_num)
  have e2 := arctan_tanPoly_ge_high x0
  have d2 : -(1 / 10 ^ 19 * u) ≤ ((piQ : ℚ) : ℝ) * u - Real.pi * u := by
    rw [← sub_mul, ← neg_mul]; exact mul_le_mul_of_nonneg_right p1 hu.le
  have d3 : ((piQ : ℚ) : ℝ) * u - Real.pi * u ≤ 1 / 10 ^ 19 * u := by
    rw [← sub_mul]; exact mul_le_mul_of_nonneg_right p2 hu.le
  have d4 : 3 * u ≤ Real.pi * u := mul_le_mul_of_nonneg_right hpi.le hu.le
  generalize Real.pi * u = w at *
  generalize ((piQ : ℚ) : ℝ) * u = x at *
  have e3 : 6 / 10000 * x ^ 17 / (1 + x ^ 2 / 2) ≤ 12999 / 1000000 * x := by
    have hb : x ^ 16 * (6 / 10000) ≤ 12999 / 1000000 * (1 + x ^ 2 / 2) := by
      have m : ∀ n : ℕ, x ^ n ≤ (3.1416 * (4 / 10)) ^ n := fun n => pow_le_pow_left₀ x0 x1 n
      have q : x ^ 16 ≤ x ^ 2 * (3.1416 * (4 / 10)) ^ 14 := by
        rw [show x ^ 16 = x ^ 2 * x ^ 14 by ring]; exact mul_le_mul_of_nonneg_left (m 14) (by positivity)
      have m2 := m 2
      norm_num at q m2 ⊢
      nlinarith
    rw [div_le_iff₀ (by positivity)]
    calc 6 / 10000 * x ^ 17 = x ^ 16 * (6 / 10000) * x := by ring
      _ ≤ 12999 / 1000000 * (1 + x ^ 2 / 2) * x := mul_le_mul_of_nonneg_right hb x0
      _ = _ := by ring
  rw [abs_le]
  norm_num at up d2 d3 ⊢
  constructor <;> linarith

/-- C196: however near to half the sample rate the cutoff, the filters act below 0.47 of it. -/
theorem C196_ceiling (hp : PowiExact powi) (hfc : 0 < fc) (hsr : 0 < sr) (hlim : fc ≤ sr / 2) :
    actsAt powi fc sr ≤ 47 / 100 * (2 * Real.pi) := by
  have hu1 : fc / sr ≤ 1 / 2 := by rw [div_le_iff₀ hsr]; linarith
  have hpq2 : ((piQ : ℚ) : ℝ) ≤ 3.1415927 := by unfold piQ; push_cast; norm_num
  have hpq : (3:ℝ) ≤ (piQ : ℚ) := by unfold piQ; push_cast; norm_num
  have hu : 0 < fc / sr := by positivity
  have x1 : ((piQ : ℚ) : ℝ) * fc / sr ≤ 15707964 / 10000000 := by
    rw [mul_div_assoc]
    refine (mul_le_mul hpq2 hu1 hu.le (by norm_num)).trans (by norm_num)
  unfold actsAt
  rw [warp_poly hp]
  have h1 : tanPoly ((piQ : ℚ) * fc / sr) ≤ 10505 / 1000 :=
    (tanPoly_strictMono.monotone x1).trans (by unfold tanPoly; norm_num)
  have h2 := Real.arctan_strictMono.monotone h1
  have h3 := Real.arctan_inv_of_pos (x := 10505 / 1000) (by norm_num)
  have h4 : Real.arctan (tanPoly (944 / 10000)) ≤ Real.arctan (10505 / 1000 : ℝ)⁻¹ :=
    Real.arctan_strictMono.monotone (by unfold tanPoly; norm_num)
  have h5 := arctan_tanPoly_ge_high (x := 944 / 10000) (by norm_num)
  have h6 := Real.pi_lt_d4
  norm_num at h5 h6
  linarith

/-- The property as one would want it: below half the sample rate the notch blocks a frequency within 5 percent of its cutoff. -/
def C196_full : Prop :=
  ∀ (powi : ℝ → ℕ → ℝ), PowiExact powi → ∀ fc q sr : ℝ, 0 < fc → 0 < q → 0 < sr → fc < sr / 2 →
    ∃ θ, |θ - 2 * Real.pi * fc / sr| ≤ 5 / 100 * (2 * Real.pi * fc / sr) ∧ (notch powi fc q sr).cgain (tone θ) = 0

/-- C196 fails at 0.499 of the sample rate. -/
theorem C196_refuted : ¬ C196_full := by
  intro h
  have hp : PowiExact (fun (x : ℝ) n => x ^ n) := fun _ _ => rfl
  obtain ⟨θ, h1, h2⟩ := h _ hp 499 1 1000 (by norm_num) (by norm_num) (by norm_num) (by norm_num)
  have h3 := C196_only hp (by norm_num) (by norm_num) (by norm_num) h2
  have h4 := C196_ceiling (fc := 499) (sr := 1000) hp (by norm_num) (by norm_num) (by norm_num)
  have h5 := (C196_below (fc := 499) (sr := 1000) hp (by norm_num) (by norm_num)).1
  have hpi := Real.pi_gt_three
  obtain ⟨a, b⟩ := abs_le.1 h1
  have k1 : 47 / 100 * (2 * Real.pi) < θ := by linarith
  have k2 : θ < 2 * Real.pi - 47 / 100 * (2 * Real.pi) := by linarith
  have : Real.cos θ < Real.cos (actsAt (fun x n => x ^ n) 499 1000) := by
    rcases le_total θ Real.pi with c | c
    · exact Real.cos_lt_cos_of_nonneg_of_le_pi h5.le c (by linarith)
    · rw [← Real.cos_two_pi_sub θ]
      exact Real.cos_lt_cos_of_nonneg_of_le_pi h5.le (by linarith) (by linarith)
  linarith

end

-- 15 kHz at 44.1 kHz is past the range of C107
example : |actsAt (fun x n => x ^ n) 15000 44100 - 2 * Real.pi * 15000 / 44100| ≤ 13 / 1000 * (2 * Real.pi * 15000 / 44100) :=
  C196_near (fun _ _ => rfl) (by norm_num) (by norm_num) (by norm_num)

end Verif
