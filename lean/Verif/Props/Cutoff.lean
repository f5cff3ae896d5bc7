import Verif.Props.FloatMath

/-! # C107–C109: where the cutoff of the designs is, what they do to a sinusoid, and boundedness -/

namespace Verif
open Butterworth FMath

/-- The point of the unit circle that belongs to the angle `θ` per sample. -/
noncomputable def tone (θ : ℝ) : ℂ := Complex.exp (θ * Complex.I)

theorem tone_norm (θ : ℝ) : ‖tone θ‖ = 1 := Complex.norm_exp_ofReal_mul_I θ

/-! ## C107 -/

/-- The angle at which the designs act is `2 arctan` of the warped frequency. -/
theorem tone_arctan (k : ℝ) : tone (2 * Real.arctan k) - 1 = Complex.I * k * (tone (2 * Real.arctan k) + 1) ∧
    tone (2 * Real.arctan k) + 1 ≠ 0 := by
  have hk : (1 + k ^ 2 : ℝ) ≠ 0 := by positivity
  have hre : (tone (2 * Real.arctan k)).re = (1 - k ^ 2) / (1 + k ^ 2) := by
    rw [tone, Complex.exp_ofReal_mul_I_re, Real.cos_two_mul, Real.cos_sq_arctan]
    field_simp; ring
  have him : (tone (2 * Real.arctan k)).im = 2 * k / (1 + k ^ 2) := by
    rw [tone, Complex.exp_ofReal_mul_I_im, Real.sin_two_mul]
    have h1 := Real.tan_arctan k
    have hc := (Real.cos_arctan_pos k).ne'
    rw [Real.tan_eq_sin_div_cos, div_eq_iff hc] at h1
    rw [h1, show 2 * (k * Real.cos (Real.arctan k)) * Real.cos (Real.arctan k) = 2 * k * Real.cos (Real.arctan k) ^ 2 by ring,
      Real.cos_sq_arctan]
    field_simp
  constructor
  · apply Complex.ext
    · simp [hre, him]
      field_simp; ring
    · simp [hre, him]
      field_simp; ring
  · intro h
    have := congrArg Complex.re h
    simp [hre] at this
    field_simp at this
    norm_num at this

theorem tanPoly_sub_le {x : ℝ} (h0 : 0 ≤ x) (h1 : x ≤ 1) : 1 + tanPoly x ^ 2 - tanPoly' x ≤ 17 / 1000 * x ^ 16 := by
  have : 1 + tanPoly x ^ 2 - tanPoly' x =
      x ^ 16 * (6404582/638512875 + 19328158/5746615875 * x ^ 2 + 33434188/28733079375 * x ^ 4 +
      521443646/1327468267125 * x ^ 6 + 2535845252/19912024006875 * x ^ 8 +
      16700628356/431427186815625 * x ^ 10 + 40611010472/3882844681340625 * x ^ 12 +
      864098525761/407698691540765625 * x ^ 14) := by
    unfold tanPoly tanPoly'; ring
  rw [this, mul_comm]
  refine mul_le_mul_of_nonneg_right ?_ (by positivity)
  have hp : ∀ n : ℕ, x ^ n ≤ 1 := fun n => pow_le_one₀ h0 h1
  linarith [hp 2, hp 4, hp 6, hp 8, hp 10, hp 12, hp 14]

/-- The arctangent of the polynomial falls short of its argument by a thousandth at most, relatively. -/
theorem arctan_tanPoly_ge {x : ℝ} (h0 : 0 ≤ x) (h1 : x ≤ 1) : x - x ^ 17 / 1000 ≤ Real.arctan (tanPoly x) := by
  have hd : ∀ y, HasDerivAt (fun y => Real.arctan (tanPoly y) - (y - y ^ 17 / 1000))
      (1 / (1 + tanPoly y ^ 2) * tanPoly' y - (1 - 17 * y ^ 16 / 1000)) y := by
    intro y
    refine (tanPoly_hasDeriv y).arctan.sub ?_
    refine (hasDerivAt_id y).sub ?_
    have := (hasDerivAt_pow 17 y).div_const 1000
    simpa using this
  have hm : MonotoneOn (fun y => Real.arctan (tanPoly y) - (y - y ^ 17 / 1000)) (Set.Icc 0 1) := by
    refine monotoneOn_of_deriv_nonneg (convex_Icc 0 1) (fun y _ => (hd y).continuousAt.continuousWithinAt)
      (fun y _ => (hd y).differentiableAt.differentiableWithinAt) fun y hy => ?_
    have hy := interior_subset hy
    rw [(hd y).deriv]
    have hq : (0:ℝ) < 1 + tanPoly y ^ 2 := by positivity
    have h2 := tanPoly_sub_le hy.1 hy.2
    have h3 : 1 / (1 + tanPoly y ^ 2) * tanPoly' y = 1 - (1 + tanPoly y ^ 2 - tanPoly' y) / (1 + tanPoly y ^ 2) := by
      field_simp; ring
    have h4 : (1 + tanPoly y ^ 2 - tanPoly' y) / (1 + tanPoly y ^ 2) ≤ 17 / 1000 * y ^ 16 := by
      rw [div_le_iff₀ hq]
      have : 17 / 1000 * y ^ 16 ≤ 17 / 1000 * y ^ 16 * (1 + tanPoly y ^ 2) := by
        have : 0 ≤ 17 / 1000 * y ^ 16 * tanPoly y ^ 2 := by positivity
        nlinarith
      linarith
    linarith
  have hz : tanPoly 0 = 0 := by unfold tanPoly; norm_num
  have := hm (Set.mem_Icc.2 ⟨le_rfl, zero_le_one⟩) (Set.mem_Icc.2 ⟨h0, h1⟩) h0
  simp only [hz, Real.arctan_zero] at this
  norm_num at this
  linarith

theorem pi_lit : |((piQ : ℚ) : ℝ) - Real.pi| ≤ 1 / 10 ^ 19 := by
  have h1 := Real.pi_gt_d20
  have h2 := Real.pi_lt_d20
  unfold piQ
  push_cast
  rw [abs_le]
  constructor <;> norm_num at h1 h2 ⊢ <;> linarith

section
variable {powi : ℝ → ℕ → ℝ} {fc q gain sr : ℝ}

/-- The angle at which the designs act, before the claim. -/
theorem cutoff_near (hp : PowiExact powi) (hfc : 0 < fc) (hsr : 0 < sr) (hlim : fc ≤ 318 / 1000 * sr) :
    |2 * Real.arctan (warp powi fc sr) - 2 * Real.pi * fc / sr| ≤ 1 / 1000 * (2 * Real.pi * fc / sr) := by
  have hx : warp powi fc sr = tanPoly ((piQ : ℚ) * fc / sr) := by
    unfold warp; rw [fastTan_eq hp]; rfl
  rw [hx]
  set u := fc / sr with hu
  have hu0 : 0 < u := by positivity
  have hu1 : u ≤ 318 / 1000 := by rw [hu, div_le_iff₀ hsr]; exact hlim
  rw [show ((piQ : ℚ) : ℝ) * fc / sr = (piQ : ℚ) * u by rw [hu]; ring,
    show 2 * Real.pi * fc / sr = 2 * (Real.pi * u) by rw [hu]; ring]
  obtain ⟨p1, p2⟩ := abs_le.1 pi_lit
  have hpi := Real.pi_gt_three
  have hpi2 := Real.pi_lt_d2
  have hpq : (3:ℝ) ≤ (piQ : ℚ) := by unfold piQ; push_cast; norm_num
  have hpq2 : ((piQ : ℚ) : ℝ) ≤ 3.1416 := by unfold piQ; push_cast; norm_num
  have x0 : 0 ≤ ((piQ : ℚ) : ℝ) * u := by positivity
  have x1 : ((piQ : ℚ) : ℝ) * u ≤ 3.1416 * (318 / 1000) := mul_le_mul hpq2 hu1 hu0.le (by norm_num)
  have x2 : ((piQ : ℚ) : ℝ) * u ≤ 1 := x1.trans (by norm_num)
  have e1 := arctan_tanPoly_le x0
  have e2 := arctan_tanPoly_ge x0 x2
  have e3 : (((piQ : ℚ) : ℝ) * u) ^ 17 ≤ 99 / 100 * (((piQ : ℚ) : ℝ) * u) := by
    have : (((piQ : ℚ) : ℝ) * u) ^ 16 ≤ (3.1416 * (318 / 1000)) ^ 16 := pow_le_pow_left₀ x0 x1 16
    have h16 : ((3.1416 : ℝ) * (318 / 1000)) ^ 16 ≤ 99 / 100 := by norm_num
    rw [pow_succ]
    exact mul_le_mul_of_nonneg_right (this.trans h16) x0
  have d1 : ((piQ : ℚ) : ℝ) * u - Real.pi * u ≤ 1 / 10 ^ 19 * u := by rw [← sub_mul]; exact mul_le_mul_of_nonneg_right p2 hu0.le
  have d2 : -(1 / 10 ^ 19 * u) ≤ ((piQ : ℚ) : ℝ) * u - Real.pi * u := by
    rw [← sub_mul, ← neg_mul]; exact mul_le_mul_of_nonneg_right p1 hu0.le
  have d3 : 3 * u ≤ Real.pi * u := mul_le_mul_of_nonneg_right hpi.le hu0.le
  rw [abs_le]
  constructor
  · norm_num at d1 d2 ⊢
    linarith
  · norm_num at d1 d2 ⊢
    linarith

/-- C107: up to 0.318 of the sample rate, the designs act at the requested frequency to a thousandth: there is an angle `θ` per
sample within that of `2π fc/sr` at which low-pass and high-pass have gain `q` (at ∓90°), the all-pass turns the phase
by 180°, the notch has gain 0 and the bell its gain. -/
theorem C107_cutoff (hp : PowiExact powi) (hfc : 0 < fc) (hsr : 0 < sr) (hq : 0 < q) (hlim : fc ≤ 318 / 1000 * sr) :
    ∃ θ : ℝ, |θ - 2 * Real.pi * fc / sr| ≤ 1 / 1000 * (2 * Real.pi * fc / sr) ∧
      (lowpass powi fc q sr).cgain (tone θ) = -Complex.I * q ∧
      (highpass powi fc q sr).cgain (tone θ) = Complex.I * q ∧
      (allpass powi fc q sr).cgain (tone θ) = -1 ∧
      (notch powi fc q sr).cgain (tone θ) = 0 ∧
      ∀ pos : ℝ → Bool, pos gain = true → (bell powi fc q gain sr pos).cgain (tone θ) = gain := by
  have hk := warp_pos hp hfc hsr
  refine ⟨2 * Real.arctan (warp powi fc sr), cutoff_near hp hfc hsr hlim, ?_⟩
  · obtain ⟨hz, hz1⟩ := tone_arctan (warp powi fc sr)
    have ha := nondegenerate hq hk
    generalize tone (2 * Real.arctan (warp powi fc sr)) = z at hz hz1
    simp only [lowpass, highpass, allpass, notch, bell, bellBoost, setup_eq, lowpassOf, highpassOf, allpassOf, notchOf, bellBoostOf,
      Lit.lit, BiquadCoeffs.cgain, BiquadCoeffs.gain, BiquadCoeffs.num, BiquadCoeffs.den, BiquadCoeffs.map]
    generalize warp powi fc sr = k at *
    have hkc : (k : ℂ) ≠ 0 := by exact_mod_cast hk.ne'
    have hqc : (q : ℂ) ≠ 0 := by exact_mod_cast hq.ne'
    have hac : (1 + (k : ℂ) / q + (k : ℂ) ^ 2) ≠ 0 := by exact_mod_cast ha
    have hI := Complex.I_sq
    have hz2 : z ^ 2 = 1 + Complex.I * k * (z + 1) ^ 2 := by linear_combination (z + 1) * hz
    have hc : ((1:ℂ) + k ^ 2) * (z ^ 2 + 1) + 2 * (k ^ 2 - 1) * z = 0 := by
      linear_combination (z - 1 + Complex.I * k * (z + 1)) * hz + k ^ 2 * (z + 1) ^ 2 * hI
    push_cast
    set N : ℂ := 1 / (1 + (k : ℂ) / q + (k : ℂ) ^ 2) with hN
    have hN1 : N * (1 + (k : ℂ) / q + (k : ℂ) ^ 2) = 1 := one_div_mul_cancel hac
    have hN0 : N ≠ 0 := by rw [hN]; exact one_div_ne_zero hac
    have hD0 : N * ((k : ℂ) / q) * (Complex.I * k * (z + 1) ^ 2) ≠ 0 := by
      refine mul_ne_zero (mul_ne_zero hN0 (div_ne_zero hkc hqc)) (mul_ne_zero (mul_ne_zero Complex.I_ne_zero hkc) (pow_ne_zero 2 hz1))
    have hden : ∀ a1 a2 : ℂ, a1 = N * (2 * (k ^ 2 - 1)) → a2 = N * (1 - k / q + k ^ 2) →
        z ^ 2 + a1 * z + a2 = N * ((k : ℂ) / q) * (Complex.I * k * (z + 1) ^ 2) := by
      rintro _ _ rfl rfl
      linear_combination N * hc - z ^ 2 * hN1 + N * (k / q) * hz2
    have hkq : (k : ℂ) / q * q = k := by field_simp
    refine ⟨?_, ?_, ?_, ?_, fun pos hpos => ?_⟩
    · rw [hden _ _ (by ring) (by ring), div_eq_iff hD0]
      linear_combination N * k * Complex.I ^ 2 * (z + 1) ^ 2 * hkq + N * k ^ 2 * (z + 1) ^ 2 * hI
    · rw [hden _ _ (by ring) (by ring), div_eq_iff hD0]
      linear_combination N * (z - 1 + Complex.I * k * (z + 1)) * hz - N * k * Complex.I ^ 2 * (z + 1) ^ 2 * hkq
    · rw [hden _ _ (by ring) (by ring), div_eq_iff hD0]
      linear_combination N * hc - hN1 - N * (k / q) * hz2
    · rw [div_eq_zero_iff]; left
      linear_combination N * hc
    · simp only [hpos, if_true]
      rw [hden _ _ (by push_cast; ring) (by push_cast; ring), div_eq_iff hD0]
      push_cast
      linear_combination N * hc + N * gain * (k / q) * hz2

-- 1 kHz at 48 kHz, Q = 2
example : PowiExact (fun x n => x ^ n) ∧ (0:ℝ) < 1000 ∧ (0:ℝ) < 48000 ∧ (0:ℝ) < 2 ∧ (1000:ℝ) ≤ 318 / 1000 * 48000 :=
  ⟨fun _ _ => rfl, by norm_num, by norm_num, by norm_num, by norm_num⟩
end

/-! ## C108 -/

/-- The real part of a complex run is the real run of the real parts. -/
theorem outAt_re (f : Biquad ℝ) (x : ℕ → ℂ) (n : ℕ) :
    (Biquad.outAt ⟨(f.z1 : ℂ), f.z2, f.coeffs.map (fun r : ℝ => (r : ℂ))⟩ x n).re = f.outAt (fun m => (x m).re) n := by
  have key : ∀ n, (Biquad.stateAt ⟨(f.z1 : ℂ), f.z2, f.coeffs.map (fun r : ℝ => (r : ℂ))⟩ x n).z1.re =
        (f.stateAt (fun m => (x m).re) n).z1 ∧
      (Biquad.stateAt ⟨(f.z1 : ℂ), f.z2, f.coeffs.map (fun r : ℝ => (r : ℂ))⟩ x n).z2.re =
        (f.stateAt (fun m => (x m).re) n).z2 := by
    intro n
    induction n with
    | zero => exact ⟨rfl, rfl⟩
    | succ n ih =>
      have hc := coeffs_stateAt f (fun m => (x m).re) n
      have hc' := coeffs_stateAt ⟨(f.z1 : ℂ), f.z2, f.coeffs.map (fun r : ℝ => (r : ℂ))⟩ x n
      simp only [BiquadCoeffs.map] at hc'
      simp only [Biquad.stateAt, Biquad.process, hc, hc', BiquadCoeffs.map] at ih ⊢
      simp only [Complex.sub_re, Complex.add_re, Complex.re_ofReal_mul, ih.1, ih.2, and_self]
  have hc := coeffs_stateAt f (fun m => (x m).re) n
  have hc' := coeffs_stateAt ⟨(f.z1 : ℂ), f.z2, f.coeffs.map (fun r : ℝ => (r : ℂ))⟩ x n
  have := (key n).1
  simp only [BiquadCoeffs.map] at hc'
  simp only [Biquad.outAt, Biquad.process, hc, hc', BiquadCoeffs.map] at this ⊢
  simp only [Complex.add_re, Complex.re_ofReal_mul, this]

/-- C108: a stable filter turns a cosine of any frequency, from any state, into the cosine of the same frequency scaled and
shifted by its gain. -/
theorem C108_sinusoid {co : BiquadCoeffs ℝ} (hs : co.Stable) (θ z1 z2 : ℝ) :
    Filter.Tendsto (fun n : ℕ => Biquad.outAt ⟨z1, z2, co⟩ (fun m : ℕ => Real.cos (θ * m)) n -
      ‖co.cgain (tone θ)‖ * Real.cos (θ * n + (co.cgain (tone θ)).arg)) Filter.atTop (nhds 0) := by
  have := gain_measured (co := co.map (fun r : ℝ => (r : ℂ))) hs (tone_norm θ)
    ⟨(z1 : ℂ), z2, co.map (fun r : ℝ => (r : ℂ))⟩ rfl
  have h2 := (Complex.continuous_re.tendsto _).comp this
  rw [Complex.zero_re] at h2
  refine h2.congr (fun n => ?_)
  have hpow : ∀ m : ℕ, tone θ ^ m = Complex.exp (((θ * m : ℝ) : ℂ) * Complex.I) := by
    intro m; unfold tone; rw [← Complex.exp_nat_mul]; congr 1; push_cast; ring
  have hre : ∀ m : ℕ, (tone θ ^ m).re = Real.cos (θ * m) := by
    intro m; rw [hpow, Complex.exp_ofReal_mul_I_re]
  simp only [Function.comp_apply, Complex.sub_re]
  rw [outAt_re ⟨z1, z2, co⟩]
  simp only [hre]
  congr 1
  have hg : (co.map (fun r : ℝ => (r : ℂ))).gain (tone θ) = co.cgain (tone θ) := rfl
  rw [hg]
  conv_lhs => rw [← Complex.norm_mul_exp_arg_mul_I (co.cgain (tone θ))]
  rw [hpow, mul_assoc, ← Complex.exp_add, ← add_mul, ← Complex.ofReal_add, Complex.re_ofReal_mul, Complex.exp_ofReal_mul_I_re,
    add_comm]

section
variable {powi : ℝ → ℕ → ℝ} {fc q sr : ℝ}

/-- C108, for example: at its cutoff a low-pass with `q` passes a cosine as a sine of amplitude `q`. -/
theorem C108_lowpass (hp : PowiExact powi) (hfc : 0 < fc) (hsr : 0 < sr) (hq : 0 < q) (hlim : fc ≤ 318 / 1000 * sr) (z1 z2 : ℝ) :
    ∃ θ : ℝ, |θ - 2 * Real.pi * fc / sr| ≤ 1 / 1000 * (2 * Real.pi * fc / sr) ∧
      Filter.Tendsto (fun n : ℕ => Biquad.outAt ⟨z1, z2, lowpass powi fc q sr⟩ (fun m : ℕ => Real.cos (θ * m)) n -
        q * Real.sin (θ * n)) Filter.atTop (nhds 0) := by
  obtain ⟨θ, h1, h2, -⟩ := C107_cutoff (gain := 1) hp hfc hsr hq hlim
  refine ⟨θ, h1, ?_⟩
  have hs := (C35_stable (sqrt := fun x => x) (gain := 1) hp hfc hq hsr).1
  refine (C108_sinusoid hs θ z1 z2).congr (fun n => ?_)
  have hn : ‖-Complex.I * (q : ℂ)‖ = q := by simp [abs_of_pos hq]
  have ha : (-Complex.I * (q : ℂ)).arg = -(Real.pi / 2) := by
    rw [mul_comm, Complex.arg_real_mul _ hq]; exact Complex.arg_neg_I
  rw [h2, hn, ha, ← sub_eq_add_neg, Real.cos_sub_pi_div_two]
end

/-! ## C109 -/

/-- A one-pole recursion from rest, driven by a bounded signal. -/
theorem one_pole_bounded {p : ℂ} (hp : ‖p‖ < 1) {u v : ℕ → ℂ} {V : ℝ} (hv : ∀ n, ‖v n‖ ≤ V)
    (h : ∀ n, u n = v n + p * past u n 1) (n : ℕ) : ‖u n‖ ≤ V / (1 - ‖p‖) := by
  have h1 : 0 < 1 - ‖p‖ := by linarith
  have hV : 0 ≤ V := (norm_nonneg _).trans (hv 0)
  induction n with
  | zero =>
    rw [h 0]
    simp only [past, show ¬ 1 ≤ 0 by omega, if_false, mul_zero, add_zero]
    refine (hv 0).trans ?_
    rw [le_div_iff₀ h1]
    nlinarith [norm_nonneg p]
  | succ n ih =>
    rw [h (n + 1)]
    simp only [past, show 1 ≤ n + 1 by omega, if_true, Nat.add_sub_cancel]
    refine (norm_add_le _ _).trans ?_
    rw [norm_mul]
    have h2 : ‖p‖ * ‖u n‖ ≤ ‖p‖ * (V / (1 - ‖p‖)) := mul_le_mul_of_nonneg_left ih (norm_nonneg _)
    have h3 : V / (1 - ‖p‖) = V + ‖p‖ * (V / (1 - ‖p‖)) := by field_simp; ring
    linarith [hv (n + 1)]

theorem past_bound {x : ℕ → ℝ} {B : ℝ} (hx : ∀ n, |x n| ≤ B) (n k : ℕ) : |past x n k| ≤ B := by
  unfold past
  split
  · exact hx _
  · rw [abs_zero]; exact (abs_nonneg _).trans (hx 0)

/-- C109: a stable filter amplifies bounded inputs by a bounded factor, for all time. -/
theorem C109_bounded {co : BiquadCoeffs ℝ} (hs : co.Stable) :
    ∃ C : ℝ, ∀ (B : ℝ) (x : ℕ → ℝ), (∀ n, |x n| ≤ B) → ∀ n, |(Biquad.new co).outAt x n| ≤ C * B := by
  obtain ⟨p, r, hpr, hpr'⟩ := exists_roots (co.a1 : ℂ) co.a2
  have hden : ∀ z : ℂ, (co.map (fun r : ℝ => (r : ℂ))).den z = (z - p) * (z - r) := by
    intro z
    simp only [BiquadCoeffs.den, BiquadCoeffs.map]
    rw [← hpr', show (co.a1 : ℂ) = -(p + r) by rw [hpr]; ring]; ring
  have hp : ‖p‖ < 1 := hs p (by rw [hden]; ring)
  have hr : ‖r‖ < 1 := hs r (by rw [hden]; ring)
  refine ⟨(|co.b0| + |co.b1| + |co.b2|) / (1 - ‖r‖) / (1 - ‖p‖), fun B x hx n => ?_⟩
  set y := (Biquad.new co).outAt x with hy
  set v : ℕ → ℝ := fun n => co.b0 * past x n 0 + co.b1 * past x n 1 + co.b2 * past x n 2 with hv
  have hvb : ∀ n, ‖((v n : ℝ) : ℂ)‖ ≤ (|co.b0| + |co.b1| + |co.b2|) * B := by
    intro n
    rw [Complex.norm_real, Real.norm_eq_abs]
    have e : ∀ (b : ℝ) (k : ℕ), |b * past x n k| ≤ |b| * B := fun b k => by
      rw [abs_mul]; exact mul_le_mul_of_nonneg_left (past_bound hx n k) (abs_nonneg _)
    refine (abs_add_three _ _ _).trans ?_
    linarith [e co.b0 0, e co.b1 1, e co.b2 2]
  have hde : ∀ n, ((y n : ℝ) : ℂ) = v n + (p + r) * past (fun m => ((y m : ℝ) : ℂ)) n 1 - p * r * past (fun m => ((y m : ℝ) : ℂ)) n 2 := by
    intro n
    have hpast : ∀ k, ((past y n k : ℝ) : ℂ) = past (fun m => ((y m : ℝ) : ℂ)) n k := by
      intro k; unfold past; split <;> simp
    have e := C27_difference_equation co x n
    rw [← hy] at e
    rw [hpr, hpr', ← hpast, ← hpast]
    have : y n = v n - co.a1 * past y n 1 - co.a2 * past y n 2 := e
    rw [this]; push_cast; ring
  set Y : ℕ → ℂ := fun m => ((y m : ℝ) : ℂ) with hY
  set u : ℕ → ℂ := fun n => Y n - p * past Y n 1 with hu
  have h1 : ∀ n, u n = (v n : ℂ) + r * past u n 1 := by
    intro n
    have e : Y n = v n + (p + r) * past Y n 1 - p * r * past Y n 2 := hde n
    have e2 : past u n 1 = past Y n 1 - p * past Y n 2 := by
      rcases n with _ | _ | n <;> simp [past, hu]
    rw [e2, hu]
    linear_combination e
  have h2 := one_pole_bounded hr hvb h1
  have h3 := one_pole_bounded hp (u := Y) (v := u) h2 (fun n => by simp [hu]) n
  rw [hY, Complex.norm_real, Real.norm_eq_abs] at h3
  refine h3.trans (le_of_eq ?_)
  field_simp

example : (lowpass (fun x n => x ^ n) (1000 : ℝ) 2 48000).Stable :=
  (C35_stable (sqrt := fun x => x) (gain := 1) (fun _ _ => rfl) (by norm_num) (by norm_num) (by norm_num)).1

end Verif
